import Verif.Proofs.Align
/-!
Which tests a run makes, and the part of the run that makes a given test.
-/

namespace Aql

open Spec

variable {E : Env}

/-! ### The tests of a set of rules -/

mutual
/-- Every terminal is described by a text in `P`, every rule is in `R`. -/
def wantE (P : Str → Bool) (R : Rule → Bool) : PExpr → Bool
  | .action _ e => wantE P R e
  | .seq es => wantL P R es
  | .choice es => wantL P R es
  | .label _ e => wantE P R e
  | .rule r => R r
  | .lit _ _ w => P w
  | .cls _ _ _ _ w => P w
  | .any => P ['.']
  | .not e => wantE P R e
  | .star e => wantE P R e
  | .plus e => wantE P R e
  | .opt e => wantE P R e
  | .recover _ e h => wantE P R e && wantE P R h
  | .throw _ => true
  | .state _ => true
def wantL (P : Str → Bool) (R : Rule → Bool) : List PExpr → Bool
  | [] => true
  | e :: es => wantE P R e && wantL P R es
end

def Job.want (P : Str → Bool) (R : Rule → Bool) : Job → Bool
  | .expr e _ => wantE P R e
  | .seq _ es _ _ => wantL P R es
  | .choice _ es => wantL P R es
  | .rep _ e _ _ => wantE P R e
  | .throw _ _ rs => rs.all fun x => wantE P R x.2

/-- The text of a mark is in `P`. -/
def Ev.In (P : Str → Bool) : Ev → Prop
  | .mark _ _ _ w => P w = true
  | _ => True

theorem in_tick {P : Str → Bool} {l : List Ev} (h : ∀ ev ∈ l, ev.In P) : ∀ ev ∈ Ev.tick :: l, ev.In P := by
  intro ev hev
  rcases List.mem_cons.1 hev with rfl | hev
  · trivial
  · exact h ev hev

theorem in_append {P : Str → Bool} {l l' : List Ev} (h : ∀ ev ∈ l, ev.In P) (h' : ∀ ev ∈ l', ev.In P) :
    ∀ ev ∈ l ++ l', ev.In P := by
  intro ev hev
  rcases List.mem_append.1 hev with hev | hev
  · exact h ev hev
  · exact h' ev hev

theorem in_one {P : Str → Bool} {ev : Ev} (h : ev.In P) : ∀ ev' ∈ [ev], ev'.In P := by
  intro ev' hev
  rw [List.mem_singleton.1 hev]
  exact h

theorem in_encErr {P : Str → Bool} {c : Cursor} : ∀ ev ∈ encErr c, ev.In P := by
  intro ev hev
  unfold encErr at hev
  split at hev
  · rw [List.mem_singleton.1 hev]; trivial
  · cases hev

theorem in_litLoop {P : Str → Bool} {ic : Bool} {s : Str} {c : Cursor} {l : List Ev} {o : Option Cursor}
    (h : litLoop E ic s c = (l, o)) : ∀ ev ∈ l, ev.In P := by
  induction s generalizing c l o with
  | nil => cases h; intro ev hev; cases hev
  | cons x s ih =>
    simp only [litLoop] at h
    split at h
    · cases h; intro ev hev; cases hev
    · rename_i y ys hy
      by_cases hx : (if ic = true then goLower E y.rune else y.rune) = x
      · rw [if_pos hx] at h
        cases h
        exact in_append in_encErr (ih rfl)
      · rw [if_neg hx] at h
        cases h; intro ev hev; cases hev

/-- The tests of a run. -/
theorem Big.wants {P : Str → Bool} {R : Rule → Bool} (hR : ∀ r, R r = true → wantE P R (grammar r) = true) {ctx : Ctx}
    {j : Job} {c : Cursor} {l : List Ev} {r : Res} (h : Big E ctx j c l r) :
    j.want P R = true → (ctx.recov.all fun x => wantE P R x.2) = true → ∀ ev ∈ l, ev.In P := by
  induction h with
  | action_ok h ha ih => intro hj hc; exact in_tick (ih hj hc)
  | action_err h ha ih => intro hj hc; exact in_tick (in_append (ih hj hc) (in_one trivial))
  | action_panic h ha ih => intro hj hc; exact in_tick (ih hj hc)
  | action_stop h hs ih => intro hj hc; exact in_tick (ih hj hc)
  | seq h ih => intro hj hc; exact in_tick (ih hj hc)
  | seq_nil => intro _ _; simp
  | seq_cons h1 h2 ih1 ih2 =>
    intro hj hc
    rw [Job.want, wantL, Bool.and_eq_true] at hj
    exact in_append (ih1 hj.1 hc) (ih2 hj.2 hc)
  | seq_fail h ih =>
    intro hj hc
    rw [Job.want, wantL, Bool.and_eq_true] at hj
    exact ih hj.1 hc
  | seq_panic h ih =>
    intro hj hc
    rw [Job.want, wantL, Bool.and_eq_true] at hj
    exact ih hj.1 hc
  | choice h ih => intro hj hc; exact in_tick (ih hj hc)
  | choice_nil => intro _ _; simp
  | choice_ok h ih =>
    intro hj hc
    rw [Job.want, wantL, Bool.and_eq_true] at hj
    exact ih hj.1 hc
  | choice_next h1 h2 ih1 ih2 =>
    intro hj hc
    rw [Job.want, wantL, Bool.and_eq_true] at hj
    exact in_append (ih1 hj.1 hc) (ih2 hj.2 hc)
  | choice_panic h ih =>
    intro hj hc
    rw [Job.want, wantL, Bool.and_eq_true] at hj
    exact ih hj.1 hc
  | label_ok h ih => intro hj hc; exact in_tick (ih hj hc)
  | label_stop h hs ih => intro hj hc; exact in_tick (ih hj hc)
  | rule_ok h ih => intro hj hc; exact in_tick (ih (hR _ hj) hc)
  | rule_stop h hs ih => intro hj hc; exact in_tick (ih (hR _ hj) hc)
  | lit_ok h => intro hj hc; exact in_tick (in_append (in_litLoop h) (in_one hj))
  | lit_fail h => intro hj hc; exact in_tick (in_append (in_litLoop h) (in_one hj))
  | cls_ok hr hm => intro hj hc; exact in_tick (in_append in_encErr (in_one hj))
  | cls_fail h => intro hj hc; exact in_tick (in_one hj)
  | any_ok hr => intro hj hc; exact in_tick (in_append in_encErr (in_one hj))
  | any_eof hr => intro hj hc; exact in_tick (in_one hj)
  | not_ok h ih => intro hj hc; exact in_tick (ih hj hc)
  | not_fail h ih => intro hj hc; exact in_tick (ih hj hc)
  | not_panic h ih => intro hj hc; exact in_tick (ih hj hc)
  | star h ih => intro hj hc; exact in_tick (ih hj hc)
  | plus h ih => intro hj hc; exact in_tick (ih hj hc)
  | rep_next h1 h2 ih1 ih2 => intro hj hc; exact in_append (ih1 hj hc) (ih2 hj hc)
  | rep_stop h hcond ih => intro hj hc; exact ih hj hc
  | rep_fail h ih => intro hj hc; exact ih hj hc
  | rep_panic h ih => intro hj hc; exact ih hj hc
  | opt_ok h ih => intro hj hc; exact in_tick (ih hj hc)
  | opt_none h ih => intro hj hc; exact in_tick (ih hj hc)
  | opt_panic h ih => intro hj hc; exact in_tick (ih hj hc)
  | recover h ih =>
    intro hj hc
    rw [Job.want, wantE, Bool.and_eq_true] at hj
    refine in_tick (ih hj.1 ?_)
    simp only [List.all_cons, Bool.and_eq_true]
    exact ⟨hj.2, hc⟩
  | throw h ih => intro hj hc; exact in_tick (ih hc hc)
  | throw_nil => intro _ _; simp
  | throw_skip hne h ih =>
    intro hj hc
    simp only [Job.want, List.all_cons, Bool.and_eq_true] at hj
    exact ih hj.2 hc
  | throw_ok h ih =>
    intro hj hc
    simp only [Job.want, List.all_cons, Bool.and_eq_true] at hj
    exact ih hj.1 hc
  | throw_next h1 h2 ih1 ih2 =>
    intro hj hc
    simp only [Job.want, List.all_cons, Bool.and_eq_true] at hj
    exact in_append (ih1 hj.1 hc) (ih2 hj.2 hc)
  | throw_panic h ih =>
    intro hj hc
    simp only [Job.want, List.all_cons, Bool.and_eq_true] at hj
    exact ih hj.1 hc
  | state => intro _ _; exact in_tick (in_one trivial)

/-! ### Where a test is made -/

/-- What is looked for: alternatives or the rest of a sequence. -/
structure Spot where
  alts : List PExpr → Prop
  rest : List PExpr → Prop

/-- A job that is looked for. -/
def Spot.At (S : Spot) : Job → Prop
  | .seq _ es _ _ => S.rest es
  | .choice _ es => S.alts es
  | _ => False

mutual
/-- Outside of the jobs of `S`, no terminal is described by a text in `P`; every rule is in `R`. -/
def srcE (P : Str → Bool) (S : Spot) (R : Rule → Bool) : PExpr → Prop
  | .action _ e => srcE P S R e
  | .seq es => srcS P S R es
  | .choice es => srcC P S R es
  | .label _ e => srcE P S R e
  | .rule r => R r = true
  | .lit _ _ w => P w = false
  | .cls _ _ _ _ w => P w = false
  | .star e => srcE P S R e
  | .plus e => srcE P S R e
  | .opt e => srcE P S R e
  | _ => False
def srcS (P : Str → Bool) (S : Spot) (R : Rule → Bool) : List PExpr → Prop
  | [] => True
  | e :: es => S.rest (e :: es) ∨ (srcE P S R e ∧ srcS P S R es)
def srcC (P : Str → Bool) (S : Spot) (R : Rule → Bool) : List PExpr → Prop
  | [] => True
  | e :: es => S.alts (e :: es) ∨ (srcE P S R e ∧ srcC P S R es)
end

def Job.src (P : Str → Bool) (S : Spot) (R : Rule → Bool) : Job → Prop
  | .expr e _ => srcE P S R e
  | .seq _ es _ _ => srcS P S R es
  | .choice _ es => srcC P S R es
  | .rep _ e _ _ => srcE P S R e
  | .throw .. => False

/-- A part of a run that is a job of `S` and makes the test `ev`. -/
def Found (E : Env) (S : Spot) (ctx : Ctx) (pre s : Str) (l : List Ev) (r : Res) (ev : Ev) : Prop :=
  ∃ j pre' s' l' r', S.At j ∧ Big E ctx j (cur pre' s') l' r' ∧ ev ∈ l' ∧ (∀ ev ∈ l', ev ∈ l) ∧
    (∀ p, Beyond p l' r' → Beyond p l r) ∧ errorsOf l' = [] ∧ r'.Calm ∧ pre' ++ s' = pre ++ s

theorem Found.here {S : Spot} {ctx : Ctx} {pre s : Str} {l : List Ev} {r : Res} {ev : Ev} {j : Job}
    (h : Big E ctx j (cur pre s) l r) (hS : S.At j) (he : ev ∈ l) (hl : errorsOf l = []) (hr : r.Calm) :
    Found E S ctx pre s l r ev :=
  ⟨j, pre, s, l, r, hS, h, he, fun _ h => h, fun _ h => h, hl, hr, rfl⟩

theorem Found.wider {S : Spot} {ctx : Ctx} {pre s pre' s' : Str} {l l' : List Ev} {r r' : Res} {ev : Ev}
    (h : Found E S ctx pre s l r ev) (hl : ∀ ev ∈ l, ev ∈ l') (hb : ∀ p, Beyond p l r → Beyond p l' r')
    (hp : pre ++ s = pre' ++ s') : Found E S ctx pre' s' l' r' ev := by
  obtain ⟨j, p1, s1, l1, r1, h1, h2, h3, h4, h5, h6, h7, h8⟩ := h
  exact ⟨j, p1, s1, l1, r1, h1, h2, h3, fun ev he => hl _ (h4 _ he), fun p hp => hb p (h5 p hp), h6, h7, h8.trans hp⟩

theorem Beyond.inner {p : Str} {l l' : List Ev} {r1 r1' : Res} (h : Beyond p l r1)
    (hl : ∀ ev ∈ l, ev ∈ l') (hr : ∀ v c fr, r1 = .ok v c fr → ∃ v fr, r1' = .ok v c fr) : Beyond p l' r1' := by
  rcases h with h | ⟨v, c, fr, h, ho⟩
  · exact .inl (h.mono (Nat.le_refl _) hl)
  · obtain ⟨v', fr', h'⟩ := hr v c fr h
    exact .inr ⟨_, _, _, h', ho⟩

theorem Beyond.after {p : Str} {l l' : List Ev} {v : PV} {pre s : Str} {fr : VFrame} {ctx : Ctx} {j : Job} {r' : Res}
    (h : Beyond p l (.ok v (cur pre s) fr)) (hb : Big E ctx j (cur pre s) l' r') (hi : ctx.inv = false)
    (hj : j.plain = true) (hn : ∀ fr, j ≠ .choice fr []) (hl : errorsOf l' = []) (hr : r'.Calm) :
    Beyond p (l ++ l') r' := by
  rcases h with h | ⟨v, c, fr, h, ho⟩
  · exact .inl (h.mono (Nat.le_refl _) fun ev he => List.mem_append_left _ he)
  · cases h
    rw [cur_off] at ho
    cases r' with
    | ok v' c' fr' =>
      obtain ⟨u, hu⟩ := hb.ok_adv
      obtain ⟨a, b, rfl, rfl⟩ := adv_cur hu
      refine .inr ⟨_, _, _, rfl, ?_⟩
      rw [cur_off, bytesOf_append']
      omega
    | fail d => exact .inl ((hb.failed rfl rfl hi hj hn hl).mono ho fun ev he => List.mem_append_right _ he)
    | panic _ _ => exact hr.elim

theorem mem_tick_mark {l : List Ev} {f i : Bool} {q : Loc} {w : Str} (h : Ev.mark f i q w ∈ Ev.tick :: l) :
    Ev.mark f i q w ∈ l := by
  rcases List.mem_cons.1 h with h | h
  · cases h
  · exact h

/-- The rules of strings and regular expressions. -/
def tokR : Rule → Bool
  | .QuotedValue | .RegexValue | .EOF | .EOL | .ErrUntermStr | .ErrUntermRegex | .EndingQuote | .EscapedChar
  | .EscapeSequence | .SingleCharEscape | .UnicodeEscape | .HexDigit | .RegexChar | .RegexEscape | .EndingSlash => true
  | _ => false

theorem tokR_of {x : Rule} (h : isTok x = true) : tokR x = true := by
  cases x <;> first | rfl | cases h

/-- Every test described in `P` is made in a job of `S`. -/
theorem Big.source {P : Str → Bool} {S : Spot} {R : Rule → Bool}
    (hR : ∀ r, R r = true → isTok r = false → srcE P S R (grammar r))
    (hT : ∀ r, tokR r = true → wantE (fun w => !P w) tokR (grammar r) = true) {ctx : Ctx}
    {j : Job} {c : Cursor} {l : List Ev} {r : Res} (h : Big E ctx j c l r) :
    ∀ {pre s : Str} {f i : Bool} {q : Loc} {w : Str}, c = cur pre s → ctx = ⟨false, []⟩ → j.plain = true →
      j.src P S R → errorsOf l = [] → r.Calm → P w = true → Ev.mark f i q w ∈ l →
      Found E S ctx pre s l r (.mark f i q w) := by
  induction h with
  | action_ok h ha ih =>
    intro pre s f i q w hc hx hj hs hl hr hw hm
    exact (ih hc hx hj hs hl trivial hw (mem_tick_mark hm)).wider mem_tick
      (fun p hb => hb.inner mem_tick (fun v c fr h => by cases h; exact ⟨_, _, rfl⟩)) rfl
  | action_err h ha ih =>
    intro pre s f i q w hc hx hj hs hl
    rw [errorsOf_cons_tick, errorsOf_append_nil] at hl
    cases hl.2
  | action_panic h ha ih => intro pre s f i q w hc hx hj hs hl hr; exact hr.elim
  | action_stop h hs ih =>
    intro pre s f i q w hc hx hj hs hl hr hw hm
    exact (ih hc hx hj hs hl hr hw (mem_tick_mark hm)).wider mem_tick
      (fun p hb => hb.inner mem_tick (fun v c fr h => ⟨v, fr, h⟩)) rfl
  | seq h ih =>
    intro pre s f i q w hc hx hj hs hl hr hw hm
    exact (ih hc hx hj hs hl hr hw (mem_tick_mark hm)).wider mem_tick
      (fun p hb => hb.inner mem_tick (fun v c fr h => ⟨v, fr, h⟩)) rfl
  | seq_nil => intro pre s f i q w hc hx hj hs hl hr hw hm; cases hm
  | seq_cons h1 h2 ih1 ih2 =>
    intro pre s f i q w hc hx hj hs hl hr hw hm
    subst hc
    rw [Job.src, srcS] at hs
    rcases hs with hs | hs
    · exact .here (.seq_cons h1 h2) hs hm hl hr
    · rw [Job.plain, plainL, Bool.and_eq_true] at hj
      rw [errorsOf_append_nil] at hl
      obtain ⟨u, hu⟩ := h1.ok_adv
      obtain ⟨a, b, rfl, rfl⟩ := adv_cur hu
      rcases List.mem_append.1 hm with hm | hm
      · exact (ih1 rfl hx hj.1 hs.1 hl.1 trivial hw hm).wider (fun ev he => List.mem_append_left _ he)
          (fun p hb => hb.after h2 (by rw [hx]) hj.2 (by intro _ h; cases h) hl.2 hr) rfl
      · exact (ih2 rfl hx hj.2 hs.2 hl.2 hr hw hm).wider (fun ev he => List.mem_append_right _ he)
          (fun p hb => hb.inner (fun ev he => List.mem_append_right _ he) (fun v c fr h => ⟨v, fr, h⟩)) (by simp)
  | seq_fail h ih =>
    intro pre s f i q w hc hx hj hs hl hr hw hm
    subst hc
    rw [Job.src, srcS] at hs
    rcases hs with hs | hs
    · exact .here (.seq_fail (acc := []) h) hs hm hl hr
    · rw [Job.plain, plainL, Bool.and_eq_true] at hj
      exact (ih rfl hx hj.1 hs.1 hl trivial hw hm).wider (fun ev he => he)
        (fun p hb => hb.inner (fun ev he => he) (fun v c fr h => by cases h)) rfl
  | seq_panic h ih => intro pre s f i q w hc hx hj hs hl hr; exact hr.elim
  | choice h ih =>
    intro pre s f i q w hc hx hj hs hl hr hw hm
    rw [Job.plain, plainE, Bool.and_eq_true] at hj
    exact (ih hc hx hj.2 hs hl hr hw (mem_tick_mark hm)).wider mem_tick
      (fun p hb => hb.inner mem_tick (fun v c fr h => ⟨v, fr, h⟩)) rfl
  | choice_nil => intro pre s f i q w hc hx hj hs hl hr hw hm; cases hm
  | choice_ok h ih =>
    intro pre s f i q w hc hx hj hs hl hr hw hm
    subst hc
    rw [Job.src, srcC] at hs
    rcases hs with hs | hs
    · exact .here (.choice_ok h) hs hm hl hr
    · rw [Job.plain, plainL, Bool.and_eq_true] at hj
      exact (ih rfl hx hj.1 hs.1 hl trivial hw hm).wider (fun ev he => he)
        (fun p hb => hb.inner (fun ev he => he) (fun v c fr h => by cases h; exact ⟨_, _, rfl⟩)) rfl
  | choice_next h1 h2 ih1 ih2 =>
    intro pre s f i q w hc hx hj hs hl hr hw hm
    have hb := h1.fail_back
    subst hb
    subst hc
    rw [Job.src, srcC] at hs
    rcases hs with hs | hs
    · exact .here (.choice_next h1 h2) hs hm hl hr
    · rw [Job.plain, plainL, Bool.and_eq_true] at hj
      rw [errorsOf_append_nil] at hl
      rcases List.mem_append.1 hm with hm | hm
      · exact (ih1 rfl hx hj.1 hs.1 hl.1 trivial hw hm).wider (fun ev he => List.mem_append_left _ he)
          (fun p hb => hb.inner (fun ev he => List.mem_append_left _ he) (fun v c fr h => by cases h)) rfl
      · exact (ih2 rfl hx hj.2 hs.2 hl.2 hr hw hm).wider (fun ev he => List.mem_append_right _ he)
          (fun p hb => hb.inner (fun ev he => List.mem_append_right _ he) (fun v c fr h => ⟨v, fr, h⟩)) rfl
  | choice_panic h ih => intro pre s f i q w hc hx hj hs hl hr; exact hr.elim
  | label_ok h ih =>
    intro pre s f i q w hc hx hj hs hl hr hw hm
    exact (ih hc hx hj hs hl trivial hw (mem_tick_mark hm)).wider mem_tick
      (fun p hb => hb.inner mem_tick (fun v c fr h => by cases h; exact ⟨_, _, rfl⟩)) rfl
  | label_stop h hs ih =>
    intro pre s f i q w hc hx hj hs hl hr hw hm
    exact (ih hc hx hj hs hl hr hw (mem_tick_mark hm)).wider mem_tick
      (fun p hb => hb.inner mem_tick (fun v c fr h => ⟨v, fr, h⟩)) rfl
  | @rule_ok ctx y fr c l v c' fr' h ih =>
    intro pre s f i q w hc hx hj hs hl hr hw hm
    cases hy : isTok y
    · exact (ih hc hx (plain_grammar _ hj hy) (hR _ hs hy) hl trivial hw (mem_tick_mark hm)).wider mem_tick
        (fun p hb => hb.inner mem_tick (fun v c fr h => by cases h; exact ⟨_, _, rfl⟩)) rfl
    · have := h.wants hT (hT _ (tokR_of hy)) (by rw [hx]; rfl) _ (mem_tick_mark hm)
      simp only [Ev.In, hw] at this
      cases this
  | @rule_stop ctx y fr c l r' h hst ih =>
    intro pre s f i q w hc hx hj hs hl hr hw hm
    cases hy : isTok y
    · exact (ih hc hx (plain_grammar _ hj hy) (hR _ hs hy) hl hr hw (mem_tick_mark hm)).wider mem_tick
        (fun p hb => hb.inner mem_tick (fun v c fr h => ⟨v, fr, h⟩)) rfl
    · have := h.wants hT (hT _ (tokR_of hy)) (by rw [hx]; rfl) _ (mem_tick_mark hm)
      simp only [Ev.In, hw] at this
      cases this
  | @lit_ok ctx s ic w' fr c l c' h =>
    intro pre s f i q w hc hx hj hs hl hr hw hm
    have := (Big.lit_ok (E := E) (ctx := ctx) (w := w') (fr := fr) h).wants (P := fun w => !P w) hT
      (by simpa [Job.want, wantE, Job.src, srcE] using hs) (by rw [hx]; rfl) _ hm
    simp only [Ev.In, hw] at this
    cases this
  | @lit_fail ctx s ic w' fr c l h =>
    intro pre s f i q w hc hx hj hs hl hr hw hm
    have := (Big.lit_fail (E := E) (ctx := ctx) (w := w') (fr := fr) h).wants (P := fun w => !P w) hT
      (by simpa [Job.want, wantE, Job.src, srcE] using hs) (by rw [hx]; rfl) _ hm
    simp only [Ev.In, hw] at this
    cases this
  | @cls_ok ctx chars ranges ic inv w' fr c s t h1 h2 =>
    intro pre s f i q w hc hx hj hs hl hr hw hm
    have := (Big.cls_ok (E := E) (ctx := ctx) (w := w') (fr := fr) h1 h2).wants (P := fun w => !P w) hT
      (by simpa [Job.want, wantE, Job.src, srcE] using hs) (by rw [hx]; rfl) _ hm
    simp only [Ev.In, hw] at this
    cases this
  | @cls_fail ctx chars ranges ic inv w' fr c h =>
    intro pre s f i q w hc hx hj hs hl hr hw hm
    have := (Big.cls_fail (E := E) (ctx := ctx) (w := w') (fr := fr) h).wants (P := fun w => !P w) hT
      (by simpa [Job.want, wantE, Job.src, srcE] using hs) (by rw [hx]; rfl) _ hm
    simp only [Ev.In, hw] at this
    cases this
  | any_ok hr => intro pre s f i q w hc hx hj; cases hj
  | any_eof hr => intro pre s f i q w hc hx hj; cases hj
  | not_ok h ih => intro pre s f i q w hc hx hj; cases hj
  | not_fail h ih => intro pre s f i q w hc hx hj; cases hj
  | not_panic h ih => intro pre s f i q w hc hx hj; cases hj
  | star h ih =>
    intro pre s f i q w hc hx hj hs hl hr hw hm
    exact (ih hc hx hj hs hl hr hw (mem_tick_mark hm)).wider mem_tick
      (fun p hb => hb.inner mem_tick (fun v c fr h => ⟨v, fr, h⟩)) rfl
  | plus h ih =>
    intro pre s f i q w hc hx hj hs hl hr hw hm
    exact (ih hc hx hj hs hl hr hw (mem_tick_mark hm)).wider mem_tick
      (fun p hb => hb.inner mem_tick (fun v c fr h => ⟨v, fr, h⟩)) rfl
  | rep_next h1 h2 ih1 ih2 =>
    intro pre s f i q w hc hx hj hs hl hr hw hm
    subst hc
    rw [errorsOf_append_nil] at hl
    obtain ⟨u, hu⟩ := h1.ok_adv
    obtain ⟨a, b, rfl, rfl⟩ := adv_cur hu
    rcases List.mem_append.1 hm with hm | hm
    · exact (ih1 rfl hx hj hs hl.1 trivial hw hm).wider (fun ev he => List.mem_append_left _ he)
        (fun p hb => hb.after h2 (by rw [hx]) hj (by intro _ h; cases h) hl.2 hr) rfl
    · exact (ih2 rfl hx hj hs hl.2 hr hw hm).wider (fun ev he => List.mem_append_right _ he)
        (fun p hb => hb.inner (fun ev he => List.mem_append_right _ he) (fun v c fr h => ⟨v, fr, h⟩)) (by simp)
  | rep_stop h hcond ih =>
    intro pre s f i q w hc hx hj hs hl hr hw hm
    exact (ih hc hx hj hs hl trivial hw hm).wider (fun ev he => he)
      (fun p hb => hb.inner (fun ev he => he) (fun v c fr h => by cases h)) rfl
  | rep_fail h ih =>
    intro pre s f i q w hc hx hj hs hl hr hw hm
    exact (ih hc hx hj hs hl trivial hw hm).wider (fun ev he => he)
      (fun p hb => hb.inner (fun ev he => he) (fun v c fr h => by cases h)) rfl
  | rep_panic h ih => intro pre s f i q w hc hx hj hs hl hr; exact hr.elim
  | opt_ok h ih =>
    intro pre s f i q w hc hx hj hs hl hr hw hm
    exact (ih hc hx hj hs hl trivial hw (mem_tick_mark hm)).wider mem_tick
      (fun p hb => hb.inner mem_tick (fun v c fr h => by cases h; exact ⟨_, _, rfl⟩)) rfl
  | opt_none h ih =>
    intro pre s f i q w hc hx hj hs hl hr hw hm
    exact (ih hc hx hj hs hl trivial hw (mem_tick_mark hm)).wider mem_tick
      (fun p hb => hb.inner mem_tick (fun v c fr h => by cases h)) rfl
  | opt_panic h ih => intro pre s f i q w hc hx hj hs hl hr; exact hr.elim
  | recover h ih => intro pre s f i q w hc hx hj; cases hj
  | throw h ih => intro pre s f i q w hc hx hj; cases hj
  | throw_nil => intro pre s f i q w hc hx hj; cases hj
  | throw_skip hne h ih => intro pre s f i q w hc hx hj; cases hj
  | throw_ok h ih => intro pre s f i q w hc hx hj; cases hj
  | throw_next h1 h2 ih1 ih2 => intro pre s f i q w hc hx hj; cases hj
  | throw_panic h ih => intro pre s f i q w hc hx hj; cases hj
  | state => intro pre s f i q w hc hx hj; cases hj

end Aql
