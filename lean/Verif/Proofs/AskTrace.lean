import Verif.Proofs.ErrorClause
import Verif.Proofs.Align
/-!
Where a run without errors tests the text, for each kind of expression.
-/

namespace Aql

open Spec

variable {E : Env} {ctx : Ctx} {fr fr' : VFrame} {pre s a b q : Str} {v : PV}

/-- A run without errors tests what follows `q`. -/
def AskJ (E : Env) (ctx : Ctx) (j : Job) (pre s q : Str) : Prop :=
  q <+: pre ++ s ∧ ∃ l r f i p w, Big E ctx j (cur pre s) l r ∧ errorsOf l = [] ∧ r.Calm ∧ Ev.mark f i p w ∈ l ∧
    p.off = bytesOf q

/-- `AskJ` of an expression. -/
abbrev Ask (E : Env) (ctx : Ctx) (e : PExpr) (fr : VFrame) := AskJ E ctx (.expr e fr)

theorem ask_here {p : Loc} (h1 : q <+: pre ++ s) (h2 : p.off = bytesOf q) (h3 : p = (cur pre s).loc) : q = pre := by
  obtain ⟨t, h1⟩ := h1
  subst h3
  rw [show (cur pre s).loc = locAt pre s from rfl, locAt_off] at h2
  exact (same_place h1 h2.symm).1

/-- A run without errors ends with a match or without. -/
theorem ask_done {j : Job} (h : AskJ E ctx j pre s q) : (∃ v a b g, OkJ E ctx j pre s v a b g) ∨ NoJ E ctx j pre s := by
  obtain ⟨-, l, r, f, i, p, w, h, hl, hr, -⟩ := h
  cases r with
  | ok v c g =>
    obtain ⟨a, b, rfl, hk⟩ := okJ_of_big h hl
    exact .inl ⟨_, _, _, _, hk⟩
  | fail d => exact .inr ⟨_, _, h, hl⟩
  | panic => exact hr.elim

theorem ask_rule {x : Rule} (h : Ask E ctx (.rule x) fr pre s q) : Ask E ctx (grammar x) [] pre s q := by
  obtain ⟨hq, l, r, f, i, p, w, h, hl, hr, hm, hp⟩ := h
  cases h with
  | rule_ok h => exact ⟨hq, _, _, f, i, p, w, h, hl, trivial, by simpa using hm, hp⟩
  | rule_stop h _ => exact ⟨hq, _, _, f, i, p, w, h, hl, hr, by simpa using hm, hp⟩

theorem ask_label {x : PLabel} {e : PExpr} (h : Ask E ctx (.label x e) fr pre s q) : Ask E ctx e [] pre s q := by
  obtain ⟨hq, l, r, f, i, p, w, h, hl, hr, hm, hp⟩ := h
  cases h with
  | label_ok h => exact ⟨hq, _, _, f, i, p, w, h, hl, trivial, by simpa using hm, hp⟩
  | label_stop h _ => exact ⟨hq, _, _, f, i, p, w, h, hl, hr, by simpa using hm, hp⟩

theorem ask_opt {e : PExpr} (h : Ask E ctx (.opt e) fr pre s q) : Ask E ctx e [] pre s q := by
  obtain ⟨hq, l, r, f, i, p, w, h, hl, hr, hm, hp⟩ := h
  cases h with
  | opt_ok h => exact ⟨hq, _, _, f, i, p, w, h, hl, trivial, by simpa using hm, hp⟩
  | opt_none h => exact ⟨hq, _, _, f, i, p, w, h, hl, trivial, by simpa using hm, hp⟩
  | opt_panic h => exact hr.elim

theorem ask_not {e : PExpr} (h : Ask E ctx (.not e) fr pre s q) : Ask E ctx.flip e [] pre s q := by
  obtain ⟨hq, l, r, f, i, p, w, h, hl, hr, hm, hp⟩ := h
  cases h with
  | not_ok h => exact ⟨hq, _, _, f, i, p, w, h, hl, trivial, by simpa using hm, hp⟩
  | not_fail h => exact ⟨hq, _, _, f, i, p, w, h, hl, trivial, by simpa using hm, hp⟩
  | not_panic h => exact hr.elim

theorem ask_recover {x : FailLabel} {e h : PExpr} (he : Ask E ctx (.recover x e h) fr pre s q) :
    Ask E { ctx with recov := (x, h) :: ctx.recov } e fr pre s q := by
  obtain ⟨hq, l, r, f, i, p, w, h, hl, hr, hm, hp⟩ := he
  cases h with
  | recover h => exact ⟨hq, _, _, f, i, p, w, h, hl, hr, by simpa using hm, hp⟩

/-- An action without errors asks what its expression asks. -/
theorem ask_action {act : Act} {e : PExpr} (h : Ask E ctx (.action act e) fr pre s q) : Ask E ctx e fr pre s q := by
  obtain ⟨hq, l, r, f, i, p, w, h, hl, hr, hm, hp⟩ := h
  cases h with
  | action_ok h _ => exact ⟨hq, _, _, f, i, p, w, h, hl, trivial, by simpa using hm, hp⟩
  | action_panic h _ => exact hr.elim
  | action_stop h _ => exact ⟨hq, _, _, f, i, p, w, h, hl, hr, by simpa using hm, hp⟩
  | action_err h _ =>
    rw [errorsOf_cons_tick, errorsOf_append_nil] at hl
    cases hl.2

theorem ask_any (h : Ask E ctx .any fr pre s q) : q = pre := by
  obtain ⟨hq, l, r, f, i, p, w, h, hl, hr, hm, hp⟩ := h
  cases h with
  | any_ok h =>
    cases s with
    | nil => cases h
    | cons x s =>
      rw [cur_next, encErr_cur] at hm
      simp only [List.nil_append, List.mem_cons, reduceCtorEq, List.not_mem_nil, or_false, false_or, Ev.mark.injEq] at hm
      exact ask_here hq hp hm.2.2.1
  | any_eof =>
    simp only [List.mem_cons, reduceCtorEq, List.not_mem_nil, or_false, false_or, Ev.mark.injEq] at hm
    exact ask_here hq hp hm.2.2.1

theorem ask_cls {chars : List Char} {ranges : List (Char × Char)} {ic inv : Bool} {w : Str}
    (h : Ask E ctx (.cls chars ranges ic inv w) fr pre s q) : q = pre := by
  obtain ⟨hq, l, r, f, i, p, w, h, hl, hr, hm, hp⟩ := h
  cases h with
  | cls_ok h =>
    cases s with
    | nil => cases h
    | cons x s =>
      rw [cur_next, encErr_cur] at hm
      simp only [List.nil_append, List.mem_cons, reduceCtorEq, List.not_mem_nil, or_false, false_or, Ev.mark.injEq] at hm
      exact ask_here hq hp hm.2.2.1
  | cls_fail =>
    simp only [List.mem_cons, reduceCtorEq, List.not_mem_nil, or_false, false_or, Ev.mark.injEq] at hm
    exact ask_here hq hp hm.2.2.1

theorem ask_lit {t : Str} {ic : Bool} {w : Str} (h : Ask E ctx (.lit t ic w) fr pre s q) : q = pre := by
  obtain ⟨hq, l, r, f, i, p, w, h, hl, hr, hm, hp⟩ := h
  have key : ∀ l', (litLoop E ic t (cur pre s)).1 = l' → l' = [] := by
    rintro l' rfl
    by_cases hm : ∃ a b, s = a ++ b ∧ a.map (fun x => if ic then goLower E x else x) = t
    · obtain ⟨a', b', hs, ha⟩ := hm
      rw [(litLoop_cur (E := E) ic t pre s).1 a' b' hs ha]
    · push Not at hm
      rw [(litLoop_cur (E := E) ic t pre s).2 hm]
  cases h with
  | lit_ok h =>
    have := key _ (congrArg Prod.fst h)
    subst this
    simp only [List.nil_append, List.mem_cons, reduceCtorEq, List.not_mem_nil, or_false, false_or, Ev.mark.injEq] at hm
    exact ask_here hq hp hm.2.2.1
  | lit_fail h =>
    have := key _ (congrArg Prod.fst h)
    subst this
    simp only [List.nil_append, List.mem_cons, reduceCtorEq, List.not_mem_nil, or_false, false_or, Ev.mark.injEq] at hm
    exact ask_here hq hp hm.2.2.1

/-- A sequence asks what one of its parts asks. -/
def AskS (E : Env) (ctx : Ctx) : List PExpr → VFrame → Str → Str → Str → Prop
  | [], _, _, _, _ => False
  | e :: es, fr, pre, s, q => Ask E ctx e fr pre s q ∨
      ∃ v1 a1 b1 fr1, Ok E ctx e fr pre s v1 a1 b1 fr1 ∧ AskS E ctx es fr1 (pre ++ a1) b1 q

theorem askJ_seq {st : Cursor} {es : List PExpr} {acc : List PV} (h : AskJ E ctx (.seq st es acc fr) pre s q) :
    AskS E ctx es fr pre s q := by
  induction es generalizing acc fr pre s with
  | nil =>
    obtain ⟨hq, l, r, f, i, p, w, h, hl, hr, hm, hp⟩ := h
    cases h
    cases hm
  | cons e es ih =>
    obtain ⟨hq, l, r, f, i, p, w, h, hl, hr, hm, hp⟩ := h
    cases h with
    | seq_cons h1 h2 =>
      rw [errorsOf_append_nil] at hl
      rcases List.mem_append.1 hm with hm | hm
      · exact .inl ⟨hq, _, _, f, i, p, w, h1, hl.1, trivial, hm, hp⟩
      · obtain ⟨a1, b1, rfl, k1⟩ := okJ_of_big h1 hl.1
        refine .inr ⟨_, a1, b1, _, k1, ih ⟨?_, _, _, f, i, p, w, h2, hl.2, hr, hm, hp⟩⟩
        rw [k1.1, ← List.append_assoc] at hq
        exact hq
    | seq_fail h => exact .inl ⟨hq, _, _, f, i, p, w, h, hl, trivial, hm, hp⟩
    | seq_panic h => exact hr.elim

theorem ask_seq {es : List PExpr} (h : Ask E ctx (.seq es) fr pre s q) : AskS E ctx es fr pre s q := by
  obtain ⟨hq, l, r, f, i, p, w, h, hl, hr, hm, hp⟩ := h
  cases h with
  | seq h => exact askJ_seq ⟨hq, _, _, f, i, p, w, h, hl, hr, by simpa using hm, hp⟩

/-- A choice asks what one of its alternatives asks; the earlier ones do not match. -/
def AskC (E : Env) (ctx : Ctx) : List PExpr → Str → Str → Str → Prop
  | [], _, _, _ => False
  | e :: es, pre, s, q => Ask E ctx e [] pre s q ∨ (No E ctx e [] pre s ∧ AskC E ctx es pre s q)

theorem askJ_choice {es : List PExpr} (h : AskJ E ctx (.choice fr es) pre s q) : AskC E ctx es pre s q := by
  induction es with
  | nil =>
    obtain ⟨hq, l, r, f, i, p, w, h, hl, hr, hm, hp⟩ := h
    cases h
    cases hm
  | cons e es ih =>
    obtain ⟨hq, l, r, f, i, p, w, h, hl, hr, hm, hp⟩ := h
    cases h with
    | choice_ok h => exact .inl ⟨hq, _, _, f, i, p, w, h, hl, trivial, hm, hp⟩
    | choice_panic h => exact hr.elim
    | choice_next h1 h2 =>
      rw [errorsOf_append_nil] at hl
      have := h1.fail_back
      subst this
      rcases List.mem_append.1 hm with hm | hm
      · exact .inl ⟨hq, _, _, f, i, p, w, h1, hl.1, trivial, hm, hp⟩
      · exact .inr ⟨⟨_, _, h1, hl.1⟩, ih ⟨hq, _, _, f, i, p, w, h2, hl.2, hr, hm, hp⟩⟩

theorem ask_choice {es : List PExpr} (h : Ask E ctx (.choice es) fr pre s q) : AskC E ctx es pre s q := by
  obtain ⟨hq, l, r, f, i, p, w, h, hl, hr, hm, hp⟩ := h
  cases h with
  | choice h => exact askJ_choice ⟨hq, _, _, f, i, p, w, h, hl, hr, by simpa using hm, hp⟩

theorem askJ_rep {e : PExpr} {one : Bool} {acc : List PV} (h : AskJ E ctx (.rep fr e one acc) pre s q) :
    ∃ a b, Row E ctx e pre s a b ∧ Ask E ctx e [] (pre ++ a) b q := by
  obtain ⟨hq, l, r, f, i, p, w, h, hl, hr, hm, hp⟩ := h
  generalize hj : Job.rep fr e one acc = j at h
  generalize hc : cur pre s = c at h
  induction h generalizing acc pre s with
  | rep_next h1 h2 _ ih2 =>
    cases hj
    subst hc
    rw [errorsOf_append_nil] at hl
    rcases List.mem_append.1 hm with hm | hm
    · exact ⟨[], s, .nil, by rw [List.append_nil]; exact ⟨hq, _, _, f, i, p, w, h1, hl.1, trivial, hm, hp⟩⟩
    · obtain ⟨a1, b1, rfl, k1⟩ := okJ_of_big h1 hl.1
      rw [k1.1, ← List.append_assoc] at hq
      obtain ⟨a, b, h3, h4⟩ := ih2 hq hl.2 hr hm rfl rfl
      exact ⟨a1 ++ a, b, .cons k1 h3, by rw [← List.append_assoc]; exact h4⟩
  | rep_stop h _ _ =>
    cases hj; subst hc
    exact ⟨[], s, .nil, by rw [List.append_nil]; exact ⟨hq, _, _, f, i, p, w, h, hl, trivial, hm, hp⟩⟩
  | rep_fail h =>
    cases hj; subst hc
    exact ⟨[], s, .nil, by rw [List.append_nil]; exact ⟨hq, _, _, f, i, p, w, h, hl, trivial, hm, hp⟩⟩
  | rep_panic h => exact hr.elim
  | _ => cases hj

theorem ask_star {e : PExpr} (h : Ask E ctx (.star e) fr pre s q) :
    ∃ a b, Row E ctx e pre s a b ∧ Ask E ctx e [] (pre ++ a) b q := by
  obtain ⟨hq, l, r, f, i, p, w, h, hl, hr, hm, hp⟩ := h
  cases h with
  | star h => exact askJ_rep ⟨hq, _, _, f, i, p, w, h, hl, hr, by simpa using hm, hp⟩

theorem ask_plus {e : PExpr} (h : Ask E ctx (.plus e) fr pre s q) :
    ∃ a b, Row E ctx e pre s a b ∧ Ask E ctx e [] (pre ++ a) b q := by
  obtain ⟨hq, l, r, f, i, p, w, h, hl, hr, hm, hp⟩ := h
  cases h with
  | plus h => exact askJ_rep ⟨hq, _, _, f, i, p, w, h, hl, hr, by simpa using hm, hp⟩

/-- Characters of a class in a row. -/
theorem row_cls {chars : List Char} {ranges : List (Char × Char)} {ic inv : Bool} {w : Str}
    (h : Row E ctx (.cls chars ranges ic inv w) pre s a b) : ∀ c ∈ a, clsMatch E chars ranges ic inv c = true := by
  induction h with
  | nil => simp
  | cons h1 _ ih =>
    obtain ⟨_, x, rfl, rfl, rfl, hm⟩ := ok_cls.1 h1
    intro c hc
    rcases List.mem_cons.1 hc with rfl | hc
    · exact hm
    · exact ih c hc

/-- What is read of a row stays the beginning of the whole. -/
theorem row_prefix {e : PExpr} {vs : List PV} {c d : Str} (h : Row E ctx e pre s a b) (hr : Reps E ctx e pre s vs c d) :
    ∃ vs' c', c = a ++ c' ∧ Reps E ctx e (pre ++ a) b vs' c' d := by
  induction h generalizing vs c with
  | nil => exact ⟨vs, c, rfl, by rw [List.append_nil]; exact hr⟩
  | cons h1 _ ih =>
    cases hr with
    | nil h => exact (h1.clash h).elim
    | cons h2 hr =>
      obtain ⟨-, rfl, rfl, -⟩ := h1.det h2
      obtain ⟨vs', c', rfl, h3⟩ := ih hr
      exact ⟨vs', c', by simp, by rw [← List.append_assoc]; exact h3⟩

theorem ask_ws (h : Ask E ctx (.rule .ws) fr pre s q) : ∃ w, Ws w ∧ q = pre ++ w := by
  obtain ⟨a, b, h1, h2⟩ := ask_star (ask_rule h)
  exact ⟨a, fun c hc => cls_ws.1 (row_cls h1 c hc), ask_cls h2⟩

theorem ask_space (h : Ask E ctx (.rule .space) fr pre s q) : ∃ w, Ws w ∧ q = pre ++ w := by
  obtain ⟨a, b, h1, h2⟩ := ask_plus (ask_rule h)
  exact ⟨a, fun c hc => cls_ws.1 (row_cls h1 c hc), ask_cls h2⟩

/-! ### Shapes -/

/-- Texts that an expression describes, whatever the order of its alternatives. -/
inductive Gen (E : Env) : PExpr → Str → Prop
  | lit {t : Str} {ic w} {a : Str} : a.map (fun x => if ic then goLower E x else x) = t → Gen E (.lit t ic w) a
  | cls {cs rs ic inv w c} : clsMatch E cs rs ic inv c = true → Gen E (.cls cs rs ic inv w) [c]
  | nil : Gen E (.seq []) []
  | cons {e es a b} : Gen E e a → Gen E (.seq es) b → Gen E (.seq (e :: es)) (a ++ b)
  | choice {e es a} : e ∈ es → Gen E e a → Gen E (.choice es) a
  | rule {x a} : Gen E (grammar x) a → Gen E (.rule x) a
  | none {e} : Gen E (.opt e) []
  | some {e a} : Gen E e a → Gen E (.opt e) a
  | one {e a} : Gen E e a → Gen E (.plus e) a
  | more {e a b} : Gen E e a → Gen E (.plus e) b → Gen E (.plus e) (a ++ b)

/-- Expressions without actions and negations, all of whose parts describe something. -/
inductive Full (E : Env) : PExpr → Prop
  | lit {t : Str} {ic w} {a : Str} : a.map (fun x => if ic then goLower E x else x) = t → Full E (.lit t ic w)
  | cls {cs rs ic inv w c} : clsMatch E cs rs ic inv c = true → Full E (.cls cs rs ic inv w)
  | seq {es} : (∀ e ∈ es, Full E e) → Full E (.seq es)
  | choice {es} : es ≠ [] → (∀ e ∈ es, Full E e) → Full E (.choice es)
  | rule {x} : Full E (grammar x) → Full E (.rule x)
  | opt {e} : Full E e → Full E (.opt e)
  | plus {e} : Full E e → Full E (.plus e)

theorem gen_seq {es : List PExpr} (h : ∀ e ∈ es, ∃ a, Gen E e a) : ∃ a, Gen E (.seq es) a := by
  induction es with
  | nil => exact ⟨_, .nil⟩
  | cons e es ih =>
    obtain ⟨a, h1⟩ := h e (by simp)
    obtain ⟨b, h2⟩ := ih fun e he => h e (by simp [he])
    exact ⟨_, .cons h1 h2⟩

theorem Full.gen {e : PExpr} (h : Full E e) : ∃ a, Gen E e a := by
  induction h with
  | lit h => exact ⟨_, .lit h⟩
  | cls h => exact ⟨_, .cls h⟩
  | seq _ ih => exact gen_seq ih
  | @choice es hn _ ih =>
    obtain ⟨e, es, rfl⟩ := List.exists_cons_of_ne_nil hn
    obtain ⟨a, h⟩ := ih e (by simp)
    exact ⟨a, .choice (by simp) h⟩
  | rule _ ih => obtain ⟨a, h⟩ := ih; exact ⟨a, .rule h⟩
  | opt _ _ => exact ⟨[], .none⟩
  | plus _ ih => obtain ⟨a, h⟩ := ih; exact ⟨a, .one h⟩

theorem okS_gen {es : List PExpr} (ih : ∀ e ∈ es, ∀ {fr pre s v a b fr'}, Ok E ctx e fr pre s v a b fr' → Gen E e a) :
    ∀ {acc fr pre s v a b fr'}, OkS E ctx es acc fr pre s v a b fr' → Gen E (.seq es) a := by
  induction es with
  | nil => rintro _ _ _ _ _ _ _ _ ⟨rfl, -⟩; exact .nil
  | cons e es ih2 =>
    rintro _ _ _ _ _ _ _ _ ⟨_, a1, b1, fr1, h1, a2, rfl, h2⟩
    exact .cons (ih e (by simp) h1) (ih2 (fun e he => ih e (by simp [he])) h2)

theorem okC_gen {es : List PExpr} (ih : ∀ e ∈ es, ∀ {fr pre s v a b fr'}, Ok E ctx e fr pre s v a b fr' → Gen E e a)
    (h : OkC E ctx es pre s v a b) : ∃ e ∈ es, Gen E e a := by
  induction es with
  | nil => exact h.elim
  | cons e es ih2 =>
    rcases h with ⟨_, h⟩ | ⟨-, h⟩
    · exact ⟨e, by simp, ih e (by simp) h⟩
    · obtain ⟨e, he, h⟩ := ih2 (fun e he => ih e (by simp [he])) h
      exact ⟨e, by simp [he], h⟩

theorem reps_gen {e : PExpr} {vs : List PV} (ih : ∀ {fr pre s v a b fr'}, Ok E ctx e fr pre s v a b fr' → Gen E e a)
    (h : Reps E ctx e pre s vs a b) (hv : vs ≠ []) : Gen E (.plus e) a := by
  induction h with
  | nil => exact (hv rfl).elim
  | @cons _ _ a1 _ a2 _ _ _ vs h1 h2 ih2 =>
    cases vs with
    | nil =>
      cases h2
      rw [List.append_nil]
      exact .one (ih h1)
    | cons x vs => exact .more (ih h1) (ih2 (by simp))

/-- What matches is described. -/
theorem Full.ok {e : PExpr} (h : Full E e) : ∀ {ctx fr pre s v a b fr'}, Ok E ctx e fr pre s v a b fr' → Gen E e a := by
  induction h with
  | lit _ => intro _ _ _ _ _ _ _ _ h; exact .lit (ok_litI.1 h).2.2.2
  | cls _ =>
    intro _ _ _ _ _ _ _ _ h
    obtain ⟨-, c, rfl, -, -, h⟩ := ok_cls.1 h
    exact .cls h
  | seq _ ih => intro _ _ _ _ _ _ _ _ h; exact okS_gen (fun e he _ _ _ _ _ _ _ h => ih e he h) (ok_seq.1 h)
  | choice _ _ ih =>
    intro _ _ _ _ _ _ _ _ h
    obtain ⟨e, he, h⟩ := okC_gen (fun e he _ _ _ _ _ _ _ h => ih e he h) (ok_choice.1 h).2
    exact .choice he h
  | rule _ ih => intro _ _ _ _ _ _ _ _ h; obtain ⟨-, _, h⟩ := ok_rule.1 h; exact .rule (ih h)
  | opt _ ih =>
    intro _ _ _ _ _ _ _ _ h
    rcases (ok_opt.1 h).2 with ⟨_, h⟩ | h
    · exact .some (ih h)
    · rw [h.2.2.1]; exact .none
  | plus _ ih =>
    intro _ _ _ _ _ _ _ _ h
    obtain ⟨-, vs, -, h, hv⟩ := ok_plus.1 h
    exact reps_gen (fun h => ih h) h hv

theorem askS_gen {es : List PExpr} (hf : ∀ e ∈ es, Full E e)
    (ih : ∀ e ∈ es, ∀ {fr pre s}, Ask E ctx e fr pre s q → ∃ x y, q = pre ++ x ∧ Gen E e (x ++ y)) :
    ∀ {fr pre s}, AskS E ctx es fr pre s q → ∃ x y, q = pre ++ x ∧ Gen E (.seq es) (x ++ y) := by
  induction es with
  | nil => intro _ _ _ h; exact h.elim
  | cons e es ih2 =>
    rintro _ _ _ (h | ⟨_, a1, b1, _, h1, h⟩)
    · obtain ⟨x, y, hq, h⟩ := ih e (by simp) h
      obtain ⟨z, hz⟩ := gen_seq fun e he => (hf e (List.mem_cons_of_mem _ he)).gen
      exact ⟨x, y ++ z, hq, by rw [← List.append_assoc]; exact .cons h hz⟩
    · obtain ⟨x, y, hq, h⟩ := ih2 (fun e he => hf e (by simp [he])) (fun e he => ih e (by simp [he])) h
      exact ⟨a1 ++ x, y, by rw [hq, List.append_assoc], by
        rw [List.append_assoc]; exact .cons ((hf e (by simp)).ok h1) h⟩

theorem askC_gen {es : List PExpr}
    (ih : ∀ e ∈ es, ∀ {fr pre s}, Ask E ctx e fr pre s q → ∃ x y, q = pre ++ x ∧ Gen E e (x ++ y))
    (h : AskC E ctx es pre s q) : ∃ x y, q = pre ++ x ∧ ∃ e ∈ es, Gen E e (x ++ y) := by
  induction es with
  | nil => exact h.elim
  | cons e es ih2 =>
    rcases h with h | ⟨-, h⟩
    · obtain ⟨x, y, hq, h⟩ := ih e (by simp) h
      exact ⟨x, y, hq, e, by simp, h⟩
    · obtain ⟨x, y, hq, e, he, h⟩ := ih2 (fun e he => ih e (by simp [he])) h
      exact ⟨x, y, hq, e, by simp [he], h⟩

theorem row_gen {e : PExpr} (hf : Full E e) (h : Row E ctx e pre s a b) {x : Str} (hx : Gen E (.plus e) x) :
    Gen E (.plus e) (a ++ x) := by
  induction h with
  | nil => exact hx
  | cons h1 _ ih => rw [List.append_assoc]; exact .more (hf.ok h1) ih

/-- A test is at the end of something that can be completed to what is described. -/
theorem Full.ask {e : PExpr} (h : Full E e) : ∀ {ctx fr pre s}, Ask E ctx e fr pre s q →
    ∃ x y, q = pre ++ x ∧ Gen E e (x ++ y) := by
  induction h with
  | lit h => intro _ _ _ _ k; exact ⟨[], _, by rw [ask_lit k, List.append_nil], .lit h⟩
  | cls h => intro _ _ _ _ k; exact ⟨[], _, by rw [ask_cls k, List.append_nil], .cls h⟩
  | seq h ih => intro _ _ _ _ k; exact askS_gen h (fun e he _ _ _ h => ih e he h) (ask_seq k)
  | choice _ _ ih =>
    intro _ _ _ _ k
    obtain ⟨x, y, hq, e, he, h⟩ := askC_gen (fun e he _ _ _ h => ih e he h) (ask_choice k)
    exact ⟨x, y, hq, .choice he h⟩
  | rule _ ih =>
    intro _ _ _ _ k
    obtain ⟨x, y, hq, h⟩ := ih (ask_rule k)
    exact ⟨x, y, hq, .rule h⟩
  | opt _ ih =>
    intro _ _ _ _ k
    obtain ⟨x, y, hq, h⟩ := ih (ask_opt k)
    exact ⟨x, y, hq, .some h⟩
  | plus hf ih =>
    intro _ _ _ _ k
    obtain ⟨a, b, hr, k⟩ := ask_plus k
    obtain ⟨x, y, hq, h⟩ := ih k
    exact ⟨a ++ x, y, by rw [hq, List.append_assoc], by rw [List.append_assoc]; exact row_gen hf hr (.one h)⟩

end Aql
