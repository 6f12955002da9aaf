import Verif.Proofs.AskClause
import Verif.Proofs.Expected
/-!
The tests that fail at the furthest place of a run without errors, for each kind of expression.
-/

namespace Aql

open Spec

variable {E : Env} {ctx : Ctx} {fr fr' : VFrame} {pre s a b q w : Str} {f : Bool} {v : PV}

/-- No failed test is beyond `q`. -/
def Below (q : Str) (l : List Ev) : Prop := ∀ b p w, Ev.mark b b p w ∈ l → p.off ≤ bytesOf q

/-- A run without errors, without failed tests beyond `q`. -/
def LimJ (E : Env) (ctx : Ctx) (j : Job) (pre s q : Str) : Prop :=
  ∃ l r, Big E ctx j (cur pre s) l r ∧ errorsOf l = [] ∧ r.Calm ∧ Below q l

/-- `LimJ` of an expression. -/
abbrev Lim (E : Env) (ctx : Ctx) (e : PExpr) (fr : VFrame) := LimJ E ctx (.expr e fr)

/-- In such a run the test `w` fails after `q`. -/
def WantJ (E : Env) (ctx : Ctx) (j : Job) (pre s q : Str) (f : Bool) (w : Str) : Prop :=
  q <+: pre ++ s ∧ ∃ l r p, Big E ctx j (cur pre s) l r ∧ errorsOf l = [] ∧ r.Calm ∧ Below q l ∧ Ev.mark f f p w ∈ l ∧
    p.off = bytesOf q

/-- `WantJ` of an expression. -/
abbrev Want (E : Env) (ctx : Ctx) (e : PExpr) (fr : VFrame) := WantJ E ctx (.expr e fr)

theorem WantJ.ask {j : Job} (h : WantJ E ctx j pre s q f w) : AskJ E ctx j pre s q := by
  obtain ⟨hq, l, r, p, h, hl, hr, -, hm, hp⟩ := h
  exact ⟨hq, l, r, f, f, p, w, h, hl, hr, hm, hp⟩

theorem WantJ.lim {j : Job} (h : WantJ E ctx j pre s q f w) : LimJ E ctx j pre s q := by
  obtain ⟨hq, l, r, p, h, hl, hr, hb, -, -⟩ := h
  exact ⟨l, r, h, hl, hr, hb⟩

theorem Below.tick {l : List Ev} (h : Below q (.tick :: l)) : Below q l := fun b p w hm => h b p w (List.mem_cons_of_mem _ hm)
theorem Below.left {l l' : List Ev} (h : Below q (l ++ l')) : Below q l := fun b p w hm => h b p w (List.mem_append_left _ hm)
theorem Below.right {l l' : List Ev} (h : Below q (l ++ l')) : Below q l' := fun b p w hm => h b p w (List.mem_append_right _ hm)

/-! ### Expressions around one other -/

theorem want_rule {x : Rule} (h : Want E ctx (.rule x) fr pre s q f w) : Want E ctx (grammar x) [] pre s q f w := by
  obtain ⟨hq, l, r, p, h, hl, hr, hb, hm, hp⟩ := h
  cases h with
  | rule_ok h => exact ⟨hq, _, _, p, h, hl, trivial, hb.tick, by simpa using hm, hp⟩
  | rule_stop h _ => exact ⟨hq, _, _, p, h, hl, hr, hb.tick, by simpa using hm, hp⟩

theorem want_label {x : PLabel} {e : PExpr} (h : Want E ctx (.label x e) fr pre s q f w) : Want E ctx e [] pre s q f w := by
  obtain ⟨hq, l, r, p, h, hl, hr, hb, hm, hp⟩ := h
  cases h with
  | label_ok h => exact ⟨hq, _, _, p, h, hl, trivial, hb.tick, by simpa using hm, hp⟩
  | label_stop h _ => exact ⟨hq, _, _, p, h, hl, hr, hb.tick, by simpa using hm, hp⟩

theorem want_opt {e : PExpr} (h : Want E ctx (.opt e) fr pre s q f w) : Want E ctx e [] pre s q f w := by
  obtain ⟨hq, l, r, p, h, hl, hr, hb, hm, hp⟩ := h
  cases h with
  | opt_ok h => exact ⟨hq, _, _, p, h, hl, trivial, hb.tick, by simpa using hm, hp⟩
  | opt_none h => exact ⟨hq, _, _, p, h, hl, trivial, hb.tick, by simpa using hm, hp⟩
  | opt_panic h => exact hr.elim

theorem want_not {e : PExpr} (h : Want E ctx (.not e) fr pre s q f w) : Want E ctx.flip e [] pre s q f w := by
  obtain ⟨hq, l, r, p, h, hl, hr, hb, hm, hp⟩ := h
  cases h with
  | not_ok h => exact ⟨hq, _, _, p, h, hl, trivial, hb.tick, by simpa using hm, hp⟩
  | not_fail h => exact ⟨hq, _, _, p, h, hl, trivial, hb.tick, by simpa using hm, hp⟩
  | not_panic h => exact hr.elim

theorem want_recover {x : FailLabel} {e h : PExpr} (he : Want E ctx (.recover x e h) fr pre s q f w) :
    Want E { ctx with recov := (x, h) :: ctx.recov } e fr pre s q f w := by
  obtain ⟨hq, l, r, p, h, hl, hr, hb, hm, hp⟩ := he
  cases h with
  | recover h => exact ⟨hq, _, _, p, h, hl, hr, hb.tick, by simpa using hm, hp⟩

theorem want_action {act : Act} {e : PExpr} (h : Want E ctx (.action act e) fr pre s q f w) : Want E ctx e fr pre s q f w := by
  obtain ⟨hq, l, r, p, h, hl, hr, hb, hm, hp⟩ := h
  cases h with
  | action_ok h _ => exact ⟨hq, _, _, p, h, hl, trivial, hb.tick, by simpa using hm, hp⟩
  | action_panic h _ => exact hr.elim
  | action_stop h _ => exact ⟨hq, _, _, p, h, hl, hr, hb.tick, by simpa using hm, hp⟩
  | action_err h _ =>
    rw [errorsOf_cons_tick, errorsOf_append_nil] at hl
    cases hl.2

theorem lim_rule {x : Rule} (h : Lim E ctx (.rule x) fr pre s q) : Lim E ctx (grammar x) [] pre s q := by
  obtain ⟨l, r, h, hl, hr, hb⟩ := h
  cases h with
  | rule_ok h => exact ⟨_, _, h, hl, trivial, hb.tick⟩
  | rule_stop h _ => exact ⟨_, _, h, hl, hr, hb.tick⟩

theorem lim_label {x : PLabel} {e : PExpr} (h : Lim E ctx (.label x e) fr pre s q) : Lim E ctx e [] pre s q := by
  obtain ⟨l, r, h, hl, hr, hb⟩ := h
  cases h with
  | label_ok h => exact ⟨_, _, h, hl, trivial, hb.tick⟩
  | label_stop h _ => exact ⟨_, _, h, hl, hr, hb.tick⟩

theorem lim_action {act : Act} {e : PExpr} (h : Lim E ctx (.action act e) fr pre s q) : Lim E ctx e fr pre s q := by
  obtain ⟨l, r, h, hl, hr, hb⟩ := h
  cases h with
  | action_ok h _ => exact ⟨_, _, h, hl, trivial, hb.tick⟩
  | action_panic h _ => exact hr.elim
  | action_stop h _ => exact ⟨_, _, h, hl, hr, hb.tick⟩
  | action_err h _ =>
    rw [errorsOf_cons_tick, errorsOf_append_nil] at hl
    cases hl.2

/-! ### Terminals -/

theorem lim_cls_fail {chars : List Char} {ranges : List (Char × Char)} {ic inv : Bool} {w : Str} (hc : ctx.inv = false)
    (hn : No E ctx (.cls chars ranges ic inv w) fr pre s) (h : Lim E ctx (.cls chars ranges ic inv w) fr pre s q) :
    bytesOf pre ≤ bytesOf q := by
  obtain ⟨l, r, h, hl, hr, hb⟩ := h
  cases h with
  | cls_ok hs hm =>
    cases s with
    | nil => cases hs
    | cons x s =>
      cases hs
      have := no_cls.1 hn _ _ rfl
      rw [show clsMatch E chars ranges ic inv x = true from hm] at this
      cases this
  | cls_fail hn =>
    have := hb false (cur pre s).loc w (by rw [hc]; simp)
    rwa [show (cur pre s).loc = locAt pre s from rfl, locAt_off] at this

theorem want_cls {chars : List Char} {ranges : List (Char × Char)} {ic inv : Bool} {w0 : Str} (hc : ctx.inv = false)
    (h : Want E ctx (.cls chars ranges ic inv w0) fr pre s q f w) : q = pre ∧ f = false ∧ w = w0 := by
  refine ⟨ask_cls h.ask, ?_⟩
  obtain ⟨hq, l, r, p, h, hl, hr, hb, hm, hp⟩ := h
  cases h with
  | cls_ok h =>
    cases s with
    | nil => cases h
    | cons x s =>
      rw [cur_next, encErr_cur, hc] at hm
      simp only [List.nil_append, List.mem_cons, reduceCtorEq, List.not_mem_nil, or_false, false_or, Ev.mark.injEq] at hm
      exact absurd (hm.1.symm.trans hm.2.1) (by simp)
  | cls_fail =>
    simp only [List.mem_cons, reduceCtorEq, List.not_mem_nil, or_false, false_or, Ev.mark.injEq] at hm
    exact ⟨hm.1, hm.2.2.2⟩

theorem want_lit {t : Str} {ic : Bool} {w0 : Str} (hc : ctx.inv = false) (h : Want E ctx (.lit t ic w0) fr pre s q f w) :
    q = pre ∧ f = false ∧ w = w0 := by
  refine ⟨ask_lit h.ask, ?_⟩
  obtain ⟨hq, l, r, p, h, hl, hr, hb, hm, hp⟩ := h
  have key : ∀ l', (litLoop E ic t (cur pre s)).1 = l' → l' = [] := by
    rintro l' rfl
    by_cases hm : ∃ a b, s = a ++ b ∧ a.map (fun x => if ic then goLower E x else x) = t
    · obtain ⟨a', b', hs, ha⟩ := hm
      rw [(litLoop_cur (E := E) ic t pre s).1 a' b' hs ha]
    · push Not at hm
      rw [(litLoop_cur (E := E) ic t pre s).2 hm]
  cases h with
  | lit_ok h =>
    have := key _ (congrArg Prod.fst h)
    subst this
    rw [hc] at hm
    simp only [List.nil_append, List.mem_cons, reduceCtorEq, List.not_mem_nil, or_false, false_or, Ev.mark.injEq] at hm
    exact absurd (hm.1.symm.trans hm.2.1) (by simp)
  | lit_fail h =>
    have := key _ (congrArg Prod.fst h)
    subst this
    simp only [List.nil_append, List.mem_cons, reduceCtorEq, List.not_mem_nil, or_false, false_or, Ev.mark.injEq] at hm
    exact ⟨hm.1, hm.2.2.2⟩

theorem want_cls_no {chars : List Char} {ranges : List (Char × Char)} {ic inv : Bool} {w0 : Str} (hc : ctx.inv = false)
    (h : Want E ctx (.cls chars ranges ic inv w0) fr pre s q f w) : No E ctx (.cls chars ranges ic inv w0) fr pre s := by
  obtain ⟨rfl, rfl, rfl⟩ := want_cls hc h
  obtain ⟨hq, l, r, p, h, hl, hr, hb, hm, hp⟩ := h
  cases h with
  | cls_ok h =>
    cases s with
    | nil => cases h
    | cons x s =>
      rw [cur_next, encErr_cur] at hm
      simp at hm
  | cls_fail h => exact ⟨_, _, .cls_fail h, hl⟩

theorem want_lit_no {t : Str} {ic : Bool} {w0 : Str} (hc : ctx.inv = false) (h : Want E ctx (.lit t ic w0) fr pre s q f w) :
    No E ctx (.lit t ic w0) fr pre s := by
  obtain ⟨rfl, rfl, rfl⟩ := want_lit hc h
  rcases ask_done h.ask with ⟨v, a, b, g, hk⟩ | hn
  · obtain ⟨-, hs, -, ha⟩ := ok_litI.1 hk
    have e := (litLoop_cur (E := E) ic t q s).1 a b hs ha
    obtain ⟨hq, l, r, p, h, hl, hr, hb, hm, hp⟩ := h
    cases h with
    | lit_ok h =>
      rw [e] at h
      cases h
      simp at hm
    | lit_fail h =>
      rw [e] at h
      cases h
  · exact hn

theorem want_any (hc : ctx.inv = true) (h : Want E ctx .any fr pre s q f w) : q = pre ∧ f = true ∧ w = ['.'] := by
  refine ⟨ask_any h.ask, ?_⟩
  obtain ⟨hq, l, r, p, h, hl, hr, hb, hm, hp⟩ := h
  cases h with
  | any_ok h =>
    cases s with
    | nil => cases h
    | cons x s =>
      rw [cur_next, encErr_cur] at hm
      simp only [List.nil_append, List.mem_cons, reduceCtorEq, List.not_mem_nil, or_false, false_or, Ev.mark.injEq] at hm
      exact ⟨hm.1, hm.2.2.2⟩
  | any_eof =>
    rw [hc] at hm
    simp only [List.mem_cons, reduceCtorEq, List.not_mem_nil, or_false, false_or, Ev.mark.injEq] at hm
    exact absurd (hm.1.symm.trans hm.2.1) (by simp)

/-! ### Sequences -/

/-- `LimJ` of the parts of a sequence that are reached. -/
def LimS (E : Env) (ctx : Ctx) : List PExpr → VFrame → Str → Str → Str → Prop
  | [], _, _, _, _ => True
  | e :: es, fr, pre, s, q => Lim E ctx e fr pre s q ∧
      ∀ v a b g, Ok E ctx e fr pre s v a b g → LimS E ctx es g (pre ++ a) b q

theorem limJ_seq {st : Cursor} {es : List PExpr} {acc : List PV} (h : LimJ E ctx (.seq st es acc fr) pre s q) :
    LimS E ctx es fr pre s q := by
  induction es generalizing acc fr pre s with
  | nil => trivial
  | cons e es ih =>
    obtain ⟨l, r, h, hl, hr, hb⟩ := h
    cases h with
    | seq_cons h1 h2 =>
      rw [errorsOf_append_nil] at hl
      refine ⟨⟨_, _, h1, hl.1, trivial, hb.left⟩, fun v a b g hk => ?_⟩
      obtain ⟨a1, b1, rfl, k1⟩ := okJ_of_big h1 hl.1
      obtain ⟨-, rfl, rfl, rfl⟩ := Ok.det hk k1
      exact ih ⟨_, _, h2, hl.2, hr, hb.right⟩
    | seq_fail h => exact ⟨⟨_, _, h, hl, trivial, hb⟩, fun v a b g hk => (hk.clash ⟨_, _, h, hl⟩).elim⟩
    | seq_panic h => exact hr.elim

theorem lim_seq {es : List PExpr} (h : Lim E ctx (.seq es) fr pre s q) : LimS E ctx es fr pre s q := by
  obtain ⟨l, r, h, hl, hr, hb⟩ := h
  cases h with
  | seq h => exact limJ_seq ⟨_, _, h, hl, hr, hb.tick⟩

/-- The test that fails is one of a part of the sequence. -/
def WantS (E : Env) (ctx : Ctx) : List PExpr → VFrame → Str → Str → Str → Bool → Str → Prop
  | [], _, _, _, _, _, _ => False
  | e :: es, fr, pre, s, q, f, w =>
      (Want E ctx e fr pre s q f w ∧ ∀ v a b g, Ok E ctx e fr pre s v a b g → LimS E ctx es g (pre ++ a) b q) ∨
      ∃ v1 a1 b1 fr1, Ok E ctx e fr pre s v1 a1 b1 fr1 ∧ WantS E ctx es fr1 (pre ++ a1) b1 q f w

theorem wantJ_seq {st : Cursor} {es : List PExpr} {acc : List PV} (h : WantJ E ctx (.seq st es acc fr) pre s q f w) :
    WantS E ctx es fr pre s q f w := by
  induction es generalizing acc fr pre s with
  | nil =>
    obtain ⟨hq, l, r, p, h, hl, hr, hb, hm, hp⟩ := h
    cases h
    cases hm
  | cons e es ih =>
    have hL := (limJ_seq h.lim).2
    obtain ⟨hq, l, r, p, h, hl, hr, hb, hm, hp⟩ := h
    cases h with
    | seq_cons h1 h2 =>
      rw [errorsOf_append_nil] at hl
      rcases List.mem_append.1 hm with hm | hm
      · exact .inl ⟨⟨hq, _, _, p, h1, hl.1, trivial, hb.left, hm, hp⟩, hL⟩
      · obtain ⟨a1, b1, rfl, k1⟩ := okJ_of_big h1 hl.1
        refine .inr ⟨_, a1, b1, _, k1, ih ⟨?_, _, _, p, h2, hl.2, hr, hb.right, hm, hp⟩⟩
        rw [k1.1, ← List.append_assoc] at hq
        exact hq
    | seq_fail h => exact .inl ⟨⟨hq, _, _, p, h, hl, trivial, hb, hm, hp⟩, hL⟩
    | seq_panic h => exact hr.elim

theorem want_seq {es : List PExpr} (h : Want E ctx (.seq es) fr pre s q f w) : WantS E ctx es fr pre s q f w := by
  obtain ⟨hq, l, r, p, h, hl, hr, hb, hm, hp⟩ := h
  cases h with
  | seq h => exact wantJ_seq ⟨hq, _, _, p, h, hl, hr, hb.tick, by simpa using hm, hp⟩

/-! ### Choices -/

/-- The test that fails is one of an alternative; the earlier ones do not match. -/
def WantC (E : Env) (ctx : Ctx) : List PExpr → Str → Str → Str → Bool → Str → Prop
  | [], _, _, _, _, _ => False
  | e :: es, pre, s, q, f, w => Want E ctx e [] pre s q f w ∨
      (No E ctx e [] pre s ∧ Lim E ctx e [] pre s q ∧ WantC E ctx es pre s q f w)

theorem wantJ_choice {es : List PExpr} (h : WantJ E ctx (.choice fr es) pre s q f w) : WantC E ctx es pre s q f w := by
  induction es with
  | nil =>
    obtain ⟨hq, l, r, p, h, hl, hr, hb, hm, hp⟩ := h
    cases h
    cases hm
  | cons e es ih =>
    obtain ⟨hq, l, r, p, h, hl, hr, hb, hm, hp⟩ := h
    cases h with
    | choice_ok h => exact .inl ⟨hq, _, _, p, h, hl, trivial, hb, hm, hp⟩
    | choice_panic h => exact hr.elim
    | choice_next h1 h2 =>
      rw [errorsOf_append_nil] at hl
      have := h1.fail_back
      subst this
      rcases List.mem_append.1 hm with hm | hm
      · exact .inl ⟨hq, _, _, p, h1, hl.1, trivial, hb.left, hm, hp⟩
      · exact .inr ⟨⟨_, _, h1, hl.1⟩, ⟨_, _, h1, hl.1, trivial, hb.left⟩, ih ⟨hq, _, _, p, h2, hl.2, hr, hb.right, hm, hp⟩⟩

theorem want_choice {es : List PExpr} (h : Want E ctx (.choice es) fr pre s q f w) : WantC E ctx es pre s q f w := by
  obtain ⟨hq, l, r, p, h, hl, hr, hb, hm, hp⟩ := h
  cases h with
  | choice h => exact wantJ_choice ⟨hq, _, _, p, h, hl, hr, hb.tick, by simpa using hm, hp⟩

/-! ### Repetitions -/

/-- The last turn of a repetition does not match. -/
theorem limJ_rep {e : PExpr} {one : Bool} {acc : List PV} (h : LimJ E ctx (.rep fr e one acc) pre s q) :
    Lim E ctx e [] pre s q ∧ ∃ a b, Row E ctx e pre s a b ∧ No E ctx e [] (pre ++ a) b ∧ Lim E ctx e [] (pre ++ a) b q := by
  obtain ⟨l, r, h, hl, hr, hb⟩ := h
  generalize hj : Job.rep fr e one acc = j at h
  generalize hc : cur pre s = c at h
  induction h generalizing acc pre s with
  | rep_next h1 h2 _ ih2 =>
    cases hj
    subst hc
    rw [errorsOf_append_nil] at hl
    obtain ⟨a1, b1, rfl, k1⟩ := okJ_of_big h1 hl.1
    obtain ⟨-, a, b, h3, h4, h5⟩ := ih2 hl.2 hr hb.right rfl rfl
    refine ⟨⟨_, _, h1, hl.1, trivial, hb.left⟩, a1 ++ a, b, .cons k1 h3, ?_, ?_⟩
    · rw [← List.append_assoc]; exact h4
    · rw [← List.append_assoc]; exact h5
  | rep_stop h _ _ =>
    cases hj; subst hc
    exact ⟨⟨_, _, h, hl, trivial, hb⟩, [], s, .nil, by rw [List.append_nil]; exact ⟨_, _, h, hl⟩,
      by rw [List.append_nil]; exact ⟨_, _, h, hl, trivial, hb⟩⟩
  | rep_fail h =>
    cases hj; subst hc
    exact ⟨⟨_, _, h, hl, trivial, hb⟩, [], s, .nil, by rw [List.append_nil]; exact ⟨_, _, h, hl⟩,
      by rw [List.append_nil]; exact ⟨_, _, h, hl, trivial, hb⟩⟩
  | rep_panic h => exact hr.elim
  | _ => cases hj

theorem lim_star {e : PExpr} (h : Lim E ctx (.star e) fr pre s q) : Lim E ctx e [] pre s q ∧
    ∃ a b, Row E ctx e pre s a b ∧ No E ctx e [] (pre ++ a) b ∧ Lim E ctx e [] (pre ++ a) b q := by
  obtain ⟨l, r, h, hl, hr, hb⟩ := h
  cases h with
  | star h => exact limJ_rep ⟨_, _, h, hl, hr, hb.tick⟩

theorem lim_plus {e : PExpr} (h : Lim E ctx (.plus e) fr pre s q) : Lim E ctx e [] pre s q ∧
    ∃ a b, Row E ctx e pre s a b ∧ No E ctx e [] (pre ++ a) b ∧ Lim E ctx e [] (pre ++ a) b q := by
  obtain ⟨l, r, h, hl, hr, hb⟩ := h
  cases h with
  | plus h => exact limJ_rep ⟨_, _, h, hl, hr, hb.tick⟩

/-- A test within a turn; the turn after it stays below too. -/
theorem wantJ_rep {e : PExpr} {one : Bool} {acc : List PV} (h : WantJ E ctx (.rep fr e one acc) pre s q f w) :
    ∃ a b, Row E ctx e pre s a b ∧ Want E ctx e [] (pre ++ a) b q f w ∧
      ∀ v a1 b1 g, Ok E ctx e [] (pre ++ a) b v a1 b1 g → Lim E ctx e [] (pre ++ a ++ a1) b1 q := by
  obtain ⟨hq, l, r, p, h, hl, hr, hb, hm, hp⟩ := h
  generalize hj : Job.rep fr e one acc = j at h
  generalize hc : cur pre s = c at h
  induction h generalizing acc pre s with
  | rep_next h1 h2 _ ih2 =>
    cases hj
    subst hc
    rw [errorsOf_append_nil] at hl
    obtain ⟨a1, b1, rfl, k1⟩ := okJ_of_big h1 hl.1
    rcases List.mem_append.1 hm with hm | hm
    · refine ⟨[], s, .nil, by rw [List.append_nil]; exact ⟨hq, _, _, p, h1, hl.1, trivial, hb.left, hm, hp⟩, ?_⟩
      intro v a2 b2 g hk
      rw [List.append_nil] at hk ⊢
      obtain ⟨-, rfl, rfl, rfl⟩ := Ok.det hk k1
      exact (limJ_rep ⟨_, _, h2, hl.2, hr, hb.right⟩).1
    · rw [k1.1, ← List.append_assoc] at hq
      obtain ⟨a, b, h3, h4, h5⟩ := ih2 hq hl.2 hr hb.right hm rfl rfl
      refine ⟨a1 ++ a, b, .cons k1 h3, ?_, ?_⟩
      · rw [← List.append_assoc]; exact h4
      · rw [← List.append_assoc]; exact h5
  | rep_stop h _ _ =>
    cases hj; subst hc
    refine ⟨[], s, .nil, by rw [List.append_nil]; exact ⟨hq, _, _, p, h, hl, trivial, hb, hm, hp⟩, ?_⟩
    intro v a2 b2 g hk
    rw [List.append_nil] at hk
    exact (hk.clash ⟨_, _, h, hl⟩).elim
  | rep_fail h =>
    cases hj; subst hc
    refine ⟨[], s, .nil, by rw [List.append_nil]; exact ⟨hq, _, _, p, h, hl, trivial, hb, hm, hp⟩, ?_⟩
    intro v a2 b2 g hk
    rw [List.append_nil] at hk
    exact (hk.clash ⟨_, _, h, hl⟩).elim
  | rep_panic h => exact hr.elim
  | _ => cases hj

theorem want_star {e : PExpr} (h : Want E ctx (.star e) fr pre s q f w) :
    ∃ a b, Row E ctx e pre s a b ∧ Want E ctx e [] (pre ++ a) b q f w ∧
      ∀ v a1 b1 g, Ok E ctx e [] (pre ++ a) b v a1 b1 g → Lim E ctx e [] (pre ++ a ++ a1) b1 q := by
  obtain ⟨hq, l, r, p, h, hl, hr, hb, hm, hp⟩ := h
  cases h with
  | star h => exact wantJ_rep ⟨hq, _, _, p, h, hl, hr, hb.tick, by simpa using hm, hp⟩

theorem want_plus {e : PExpr} (h : Want E ctx (.plus e) fr pre s q f w) :
    ∃ a b, Row E ctx e pre s a b ∧ Want E ctx e [] (pre ++ a) b q f w ∧
      ∀ v a1 b1 g, Ok E ctx e [] (pre ++ a) b v a1 b1 g → Lim E ctx e [] (pre ++ a ++ a1) b1 q := by
  obtain ⟨hq, l, r, p, h, hl, hr, hb, hm, hp⟩ := h
  cases h with
  | plus h => exact wantJ_rep ⟨hq, _, _, p, h, hl, hr, hb.tick, by simpa using hm, hp⟩

/-! ### White space -/

theorem bytes_append {p r : Str} : bytesOf (p ++ r) = bytesOf p + bytesOf r := by
  unfold bytesOf
  rw [List.map_append, List.sum_append]

theorem lim_ws (hc : ctx.inv = false) (h : Lim E ctx (.rule .ws) fr pre s q) : bytesOf pre ≤ bytesOf q := by
  obtain ⟨-, a, b, -, hn, hl⟩ := lim_star (lim_rule h)
  have := lim_cls_fail hc hn hl
  rw [bytes_append] at this
  omega

theorem lim_space (hc : ctx.inv = false) (h : Lim E ctx (.rule .space) fr pre s q) : bytesOf pre ≤ bytesOf q := by
  obtain ⟨-, a, b, -, hn, hl⟩ := lim_plus (lim_rule h)
  have := lim_cls_fail hc hn hl
  rw [bytes_append] at this
  omega

theorem lim_digits {w : Str} (hc : ctx.inv = false) (h : Lim E ctx (.plus (.cls [] [('0', '9')] false false w)) fr pre s q) :
    bytesOf pre ≤ bytesOf q := by
  obtain ⟨-, a, b, -, hn, hl⟩ := lim_plus h
  have := lim_cls_fail hc hn hl
  rw [bytes_append] at this
  omega

theorem want_ws (hc : ctx.inv = false) (h : Want E ctx (.rule .ws) fr pre s q f w) :
    f = false ∧ w = "[ \\n\\t\\r]".toList ∧ ∃ u, Ws u ∧ q = pre ++ u := by
  obtain ⟨a, b, h1, h2, -⟩ := want_star (want_rule h)
  obtain ⟨rfl, hf, hw⟩ := want_cls hc h2
  exact ⟨hf, hw, a, fun c hc => cls_ws.1 (row_cls h1 c hc), rfl⟩

theorem want_space (hc : ctx.inv = false) (h : Want E ctx (.rule .space) fr pre s q f w) :
    f = false ∧ w = "[ \\n\\t\\r]".toList ∧ ∃ u, Ws u ∧ q = pre ++ u := by
  obtain ⟨a, b, h1, h2, -⟩ := want_plus (want_rule h)
  obtain ⟨rfl, hf, hw⟩ := want_cls hc h2
  exact ⟨hf, hw, a, fun c hc => cls_ws.1 (row_cls h1 c hc), rfl⟩

/-! ### What a match leaves -/

/-- A match reaches no further than `q`. -/
def Stop (E : Env) (ctx : Ctx) (e : PExpr) (fr : VFrame) (pre s q : Str) : Prop :=
  ∀ v a b g, Ok E ctx e fr pre s v a b g → bytesOf (pre ++ a) ≤ bytesOf q

theorem Stop.rule {x : Rule} (h : Stop E ctx (.rule x) fr pre s q) : Stop E ctx (grammar x) [] pre s q :=
  fun _ _ _ _ hk => h _ _ _ _ (ok_rule.2 ⟨rfl, _, hk⟩)

theorem Stop.label {x : PLabel} {e : PExpr} (h : Stop E ctx (.label x e) fr pre s q) : Stop E ctx e [] pre s q :=
  fun _ _ _ _ hk => h _ _ _ _ (ok_label.2 ⟨rfl, _, hk⟩)

theorem Stop.action {act : Act} {e : PExpr} (h : Stop E ctx (.action act e) fr pre s q)
    (hw : Want E ctx (.action act e) fr pre s q f w) : Stop E ctx e fr pre s q := by
  intro v a b g hk
  rcases ask_done hw.ask with ⟨_, _, _, _, hk2⟩ | hn
  · have h1 := h _ _ _ _ hk2
    obtain ⟨_, hk2, -⟩ := ok_action.1 hk2
    obtain ⟨-, rfl, -, -⟩ := hk.det hk2
    exact h1
  · exact (hk.clash (no_action.1 hn)).elim

theorem Stop.first {e : PExpr} {es : List PExpr} (h : Stop E ctx (.choice (e :: es)) fr pre s q) : Stop E ctx e [] pre s q :=
  fun _ _ _ _ hk => h _ _ _ _ (ok_choice.2 ⟨rfl, .inl ⟨_, hk⟩⟩)

theorem Stop.next {e : PExpr} {es : List PExpr} (h : Stop E ctx (.choice (e :: es)) fr pre s q) (hn : No E ctx e [] pre s) :
    Stop E ctx (.choice es) fr pre s q :=
  fun _ _ _ _ hk => h _ _ _ _ (ok_choice.2 ⟨(ok_choice.1 hk).1, .inr ⟨hn, (ok_choice.1 hk).2⟩⟩)

/-- `Stop` of the parts that are left of a sequence. -/
def StopS (E : Env) (ctx : Ctx) (es : List PExpr) (fr : VFrame) (pre s q : Str) : Prop :=
  ∀ acc v a b g, OkS E ctx es acc fr pre s v a b g → bytesOf (pre ++ a) ≤ bytesOf q

theorem okS_acc {es : List PExpr} : ∀ {acc acc' : List PV} {fr : VFrame} {pre s : Str}, OkS E ctx es acc fr pre s v a b fr' →
    ∃ v', OkS E ctx es acc' fr pre s v' a b fr' := by
  induction es generalizing a with
  | nil => rintro acc acc' fr pre s ⟨h1, h2, -, h4⟩; exact ⟨_, h1, h2, rfl, h4⟩
  | cons e es ih =>
    rintro acc acc' fr pre s ⟨v1, a1, b1, fr1, h1, a2, h2, h3⟩
    obtain ⟨v', h3⟩ := ih (acc' := acc' ++ [v1]) h3
    exact ⟨v', v1, a1, b1, fr1, h1, a2, h2, h3⟩

theorem Stop.seq {es : List PExpr} (h : Stop E ctx (.seq es) fr pre s q) : StopS E ctx es fr pre s q := by
  intro acc v a b g hk
  obtain ⟨v', hk⟩ := okS_acc (acc' := []) hk
  exact h _ _ _ _ (ok_seq.2 hk)

theorem StopS.tail {e : PExpr} {es : List PExpr} {v1 : PV} {a1 b1 : Str} {fr1 : VFrame} (h : StopS E ctx (e :: es) fr pre s q)
    (hk : Ok E ctx e fr pre s v1 a1 b1 fr1) : StopS E ctx es fr1 (pre ++ a1) b1 q := by
  intro acc v a b g h2
  obtain ⟨v', h2⟩ := okS_acc (acc' := [] ++ [v1]) h2
  rw [List.append_assoc]
  exact h _ _ _ _ _ ⟨_, _, _, _, hk, _, rfl, h2⟩

theorem StopS.last {e : PExpr} (h : StopS E ctx [e] fr pre s q) : Stop E ctx e fr pre s q := by
  intro v a b g hk
  exact h [] _ _ _ _ ⟨_, _, _, _, hk, [], by simp, rfl, rfl, rfl, rfl⟩

/-! ### Shapes -/

theorem begins_append {T : Terminal} {x y : Str} (h : T.Begins E x) : T.Begins E (x ++ y) := by
  cases T with
  | lit t ic =>
    obtain ⟨a, b, rfl, h⟩ := h
    exact ⟨a, b ++ y, by simp, h⟩
  | cls cs rs ic inv =>
    obtain ⟨c, b, rfl, h⟩ := h
    exact ⟨c, b ++ y, by simp, h⟩
  | any =>
    intro he
    exact h (List.append_eq_nil_iff.1 he).1

/-- The wanted text can be part of something that is described. -/
def GenWant (E : Env) (e : PExpr) (pre q : Str) (f : Bool) (w : Str) : Prop :=
  f = false ∧ ∃ x y T, q = pre ++ x ∧ Gen E e (x ++ y) ∧ readWant w = some T ∧ T.Begins E y

theorem wantS_gen {es : List PExpr} (hf : ∀ e ∈ es, Full E e)
    (ih : ∀ e ∈ es, ∀ {fr pre s}, Want E ctx e fr pre s q f w → GenWant E e pre q f w) :
    ∀ {fr pre s}, WantS E ctx es fr pre s q f w → GenWant E (.seq es) pre q f w := by
  induction es with
  | nil => intro _ _ _ h; exact h.elim
  | cons e es ih2 =>
    rintro _ _ _ (⟨h, -⟩ | ⟨_, a1, b1, _, h1, h⟩)
    · obtain ⟨hff, x, y, T, hq, h, hT, hb⟩ := ih e (by simp) h
      obtain ⟨z, hz⟩ := gen_seq fun e he => (hf e (List.mem_cons_of_mem _ he)).gen
      exact ⟨hff, x, y ++ z, T, hq, by rw [← List.append_assoc]; exact .cons h hz, hT, begins_append hb⟩
    · obtain ⟨hff, x, y, T, hq, h, hT, hb⟩ := ih2 (fun e he => hf e (by simp [he])) (fun e he => ih e (by simp [he])) h
      exact ⟨hff, a1 ++ x, y, T, by rw [hq, List.append_assoc], by
        rw [List.append_assoc]; exact .cons ((hf e (by simp)).ok h1) h, hT, hb⟩

theorem wantC_gen {es : List PExpr}
    (ih : ∀ e ∈ es, ∀ {fr pre s}, Want E ctx e fr pre s q f w → GenWant E e pre q f w)
    (h : WantC E ctx es pre s q f w) : ∃ e ∈ es, GenWant E e pre q f w := by
  induction es with
  | nil => exact h.elim
  | cons e es ih2 =>
    rcases h with h | ⟨-, -, h⟩
    · exact ⟨e, by simp, ih e (by simp) h⟩
    · obtain ⟨e, he, h⟩ := ih2 (fun e he => ih e (by simp [he])) h
      exact ⟨e, by simp [he], h⟩

theorem told_mem {es : List PExpr} (h : toldL es = true) : ∀ e ∈ es, toldE e = true := by
  induction es with
  | nil => simp
  | cons e es ih =>
    rw [toldL, Bool.and_eq_true] at h
    intro x hx
    rcases List.mem_cons.1 hx with rfl | hx
    · exact h.1
    · exact ih h.2 x hx

/-- What is wanted at a place can be part of something that is described. -/
theorem Full.want {e : PExpr} (h : Full E e) (ht : toldE e = true) (hc : ctx.inv = false) : ∀ {fr pre s},
    Want E ctx e fr pre s q f w → GenWant E e pre q f w := by
  induction h with
  | @lit t ic w0 a0 h =>
    intro _ pre s k
    obtain ⟨rfl, rfl, rfl⟩ := want_lit hc k
    rw [toldE] at ht
    obtain ⟨T, hT, hb⟩ := lit_begins (E := E) (s := a0) ht
    exact ⟨rfl, [], a0, T, by simp, .lit h, hT, hb.2 ⟨_, [], by simp, h⟩⟩
  | cls h =>
    intro _ pre s k
    obtain ⟨rfl, rfl, rfl⟩ := want_cls hc k
    rw [toldE, clsReads, beq_iff_eq] at ht
    exact ⟨rfl, [], _, _, by simp, .cls h, ht, cls_begins.2 ⟨_, _, rfl, h⟩⟩
  | seq h ih =>
    intro _ _ _ k
    rw [toldE] at ht
    exact wantS_gen h (fun e he _ _ _ h => ih e he (told_mem ht e he) h) (want_seq k)
  | choice _ _ ih =>
    intro _ _ _ k
    rw [toldE] at ht
    obtain ⟨e, he, hf, x, y, T, hq, h, hT⟩ := wantC_gen (fun e he _ _ _ h => ih e he (told_mem ht e he) h) (want_choice k)
    exact ⟨hf, x, y, T, hq, .choice he h, hT⟩
  | rule _ ih =>
    intro _ _ _ k
    obtain ⟨hf, x, y, T, hq, h, hT⟩ := ih (told_grammar _) (want_rule k)
    exact ⟨hf, x, y, T, hq, .rule h, hT⟩
  | opt _ ih =>
    intro _ _ _ k
    rw [toldE] at ht
    obtain ⟨hf, x, y, T, hq, h, hT⟩ := ih ht (want_opt k)
    exact ⟨hf, x, y, T, hq, .some h, hT⟩
  | plus hf ih =>
    intro _ _ _ k
    rw [toldE] at ht
    obtain ⟨a, b, hr, k, -⟩ := want_plus k
    obtain ⟨hff, x, y, T, hq, h, hT⟩ := ih ht k
    exact ⟨hff, a ++ x, y, T, by rw [hq, List.append_assoc], by rw [List.append_assoc]; exact row_gen hf hr (.one h), hT⟩

end Aql
