import Verif.Proofs.Language
/-!
Where the first recorded error of a run on a decodable text comes from, for each kind of expression.
-/

namespace Aql

open Spec

variable {E : Env} {ctx : Ctx} {fr fr' : VFrame} {pre s a b : Str} {v : PV} {p : Loc} {k : RecErr}

/-- The first recorded error is `k` at `p`. -/
def ErJ (E : Env) (ctx : Ctx) (j : Job) (pre s : Str) (p : Loc) (k : RecErr) : Prop :=
  ∃ l r, Big E ctx j (cur pre s) l r ∧ (errorsOf l).head? = some (p, k)

/-- `ErJ` of an expression. -/
abbrev Er (E : Env) (ctx : Ctx) (e : PExpr) (fr : VFrame) := ErJ E ctx (.expr e fr)

theorem head_append {l l' : List Ev} : (errorsOf (l ++ l')).head? = some (p, k) ↔
    (errorsOf l).head? = some (p, k) ∨ errorsOf l = [] ∧ (errorsOf l').head? = some (p, k) := by
  rw [errorsOf_append]
  cases errorsOf l <;> simp

theorem head_tick {l : List Ev} : (errorsOf (.tick :: l)).head? = some (p, k) ↔
    (errorsOf l).head? = some (p, k) := Iff.rfl

theorem er_rule {x : Rule} (h : Er E ctx (.rule x) fr pre s p k) : Er E ctx (grammar x) [] pre s p k := by
  obtain ⟨l, r, h, hl⟩ := h
  cases h with
  | rule_ok h => exact ⟨_, _, h, hl⟩
  | rule_stop h _ => exact ⟨_, _, h, hl⟩

theorem er_label {x : PLabel} {e : PExpr} (h : Er E ctx (.label x e) fr pre s p k) : Er E ctx e [] pre s p k := by
  obtain ⟨l, r, h, hl⟩ := h
  cases h with
  | label_ok h => exact ⟨_, _, h, hl⟩
  | label_stop h _ => exact ⟨_, _, h, hl⟩

theorem er_opt {e : PExpr} (h : Er E ctx (.opt e) fr pre s p k) : Er E ctx e [] pre s p k := by
  obtain ⟨l, r, h, hl⟩ := h
  cases h with
  | opt_ok h => exact ⟨_, _, h, hl⟩
  | opt_none h => exact ⟨_, _, h, hl⟩
  | opt_panic h => exact ⟨_, _, h, hl⟩

theorem er_not {e : PExpr} (h : Er E ctx (.not e) fr pre s p k) : Er E ctx.flip e [] pre s p k := by
  obtain ⟨l, r, h, hl⟩ := h
  cases h with
  | not_ok h => exact ⟨_, _, h, hl⟩
  | not_fail h => exact ⟨_, _, h, hl⟩
  | not_panic h => exact ⟨_, _, h, hl⟩

theorem er_recover {x : FailLabel} {e h : PExpr} (he : Er E ctx (.recover x e h) fr pre s p k) :
    Er E { ctx with recov := (x, h) :: ctx.recov } e fr pre s p k := by
  obtain ⟨l, r, h, hl⟩ := he
  cases h with
  | recover h => exact ⟨_, _, h, hl⟩

theorem er_state {st : StateCode} (h : Er E ctx (.state st) fr pre s p k) : p = locAt pre s ∧ k = runState st := by
  obtain ⟨l, r, h, hl⟩ := h
  cases h
  simp only [errorsOf, List.filterMap_cons, List.filterMap_nil, List.head?_cons, Option.some.injEq, Prod.mk.injEq] at hl
  exact ⟨hl.1.symm, hl.2.symm⟩

theorem er_any (h : Er E ctx .any fr pre s p k) : False := by
  obtain ⟨l, r, h, hl⟩ := h
  cases h with
  | any_ok h =>
    cases s with
    | nil => cases h
    | cons x s => rw [cur_next, encErr_cur] at hl; cases hl
  | any_eof => cases hl

theorem er_cls {chars : List Char} {ranges : List (Char × Char)} {ic inv : Bool} {w : Str}
    (h : Er E ctx (.cls chars ranges ic inv w) fr pre s p k) : False := by
  obtain ⟨l, r, h, hl⟩ := h
  cases h with
  | cls_ok h =>
    cases s with
    | nil => cases h
    | cons x s => rw [cur_next, encErr_cur] at hl; cases hl
  | cls_fail => cases hl

theorem er_lit {t : Str} {ic : Bool} {w : Str} (h : Er E ctx (.lit t ic w) fr pre s p k) : False := by
  obtain ⟨l, r, h, hl⟩ := h
  by_cases hm : ∃ a b, s = a ++ b ∧ a.map (fun x => if ic then goLower E x else x) = t
  · obtain ⟨a', b', hs, ha⟩ := hm
    have hll := (litLoop_cur (E := E) ic t pre s).1 a' b' hs ha
    cases h with
    | lit_ok h => rw [hll] at h; cases h; cases hl
    | lit_fail h => rw [hll] at h; cases h
  · push Not at hm
    have hll := (litLoop_cur (E := E) ic t pre s).2 hm
    cases h with
    | lit_ok h => rw [hll] at h; cases h
    | lit_fail h => rw [hll] at h; cases h; cases hl

/-- The error of an action is that of its text, or comes from inside. -/
theorem er_action {act : Act} {e : PExpr} (h : Er E ctx (.action act e) fr pre s p k) :
    Er E ctx e fr pre s p k ∨ ∃ v a b g v', Ok E ctx e fr pre s v a b g ∧
      runAct E act g a (locAt pre s) = .ok (v', some k) ∧ p = locAt pre s := by
  obtain ⟨l, r, h, hl⟩ := h
  cases h with
  | action_ok h _ => exact .inl ⟨_, _, h, hl⟩
  | action_panic h _ => exact .inl ⟨_, _, h, hl⟩
  | action_stop h _ => exact .inl ⟨_, _, h, hl⟩
  | action_err h hr =>
    rw [head_tick, head_append] at hl
    rcases hl with hl | ⟨h0, hl⟩
    · exact .inl ⟨_, _, h, hl⟩
    · obtain ⟨a, b, rfl, hk⟩ := okJ_of_big h h0
      have hs := hk.1
      subst hs
      rw [textOf_cur] at hr
      simp only [errorsOf, List.filterMap_cons, List.filterMap_nil, List.head?_cons, Option.some.injEq,
        Prod.mk.injEq] at hl
      obtain ⟨rfl, rfl⟩ := hl
      exact .inr ⟨_, a, b, _, _, hk, hr, rfl⟩

/-- The error of a sequence comes from one of its parts. -/
def ErS (E : Env) (ctx : Ctx) : List PExpr → VFrame → Str → Str → Loc → RecErr → Prop
  | [], _, _, _, _, _ => False
  | e :: es, fr, pre, s, p, k => Er E ctx e fr pre s p k ∨
      ∃ v1 a1 b1 fr1, Ok E ctx e fr pre s v1 a1 b1 fr1 ∧ ErS E ctx es fr1 (pre ++ a1) b1 p k

theorem erJ_seq {st : Cursor} {es : List PExpr} {acc : List PV} (h : ErJ E ctx (.seq st es acc fr) pre s p k) :
    ErS E ctx es fr pre s p k := by
  induction es generalizing acc fr pre s with
  | nil => obtain ⟨l, r, h, hl⟩ := h; cases h; cases hl
  | cons e es ih =>
    obtain ⟨l, r, h, hl⟩ := h
    cases h with
    | seq_cons h1 h2 =>
      rw [head_append] at hl
      rcases hl with hl | ⟨h0, hl⟩
      · exact .inl ⟨_, _, h1, hl⟩
      · obtain ⟨a1, b1, rfl, k1⟩ := okJ_of_big h1 h0
        exact .inr ⟨_, a1, b1, _, k1, ih ⟨_, _, h2, hl⟩⟩
    | seq_fail h => exact .inl ⟨_, _, h, hl⟩
    | seq_panic h => exact .inl ⟨_, _, h, hl⟩

theorem er_seq {es : List PExpr} (h : Er E ctx (.seq es) fr pre s p k) : ErS E ctx es fr pre s p k := by
  obtain ⟨l, r, h, hl⟩ := h
  cases h with
  | seq h => exact erJ_seq ⟨_, _, h, hl⟩

/-- The error of a choice comes from one of its alternatives; the earlier ones do not match. -/
def ErC (E : Env) (ctx : Ctx) : List PExpr → Str → Str → Loc → RecErr → Prop
  | [], _, _, _, _ => False
  | e :: es, pre, s, p, k => Er E ctx e [] pre s p k ∨ (No E ctx e [] pre s ∧ ErC E ctx es pre s p k)

theorem erJ_choice {es : List PExpr} (h : ErJ E ctx (.choice fr es) pre s p k) : ErC E ctx es pre s p k := by
  induction es with
  | nil => obtain ⟨l, r, h, hl⟩ := h; cases h; cases hl
  | cons e es ih =>
    obtain ⟨l, r, h, hl⟩ := h
    cases h with
    | choice_ok h => exact .inl ⟨_, _, h, hl⟩
    | choice_panic h => exact .inl ⟨_, _, h, hl⟩
    | choice_next h1 h2 =>
      rw [head_append] at hl
      rcases hl with hl | ⟨h0, hl⟩
      · exact .inl ⟨_, _, h1, hl⟩
      · have := h1.fail_back
        subst this
        exact .inr ⟨⟨_, _, h1, h0⟩, ih ⟨_, _, h2, hl⟩⟩

theorem er_choice {es : List PExpr} (h : Er E ctx (.choice es) fr pre s p k) : ErC E ctx es pre s p k := by
  obtain ⟨l, r, h, hl⟩ := h
  cases h with
  | choice h => exact erJ_choice ⟨_, _, h, hl⟩

/-- Some matches in a row. -/
inductive Row (E : Env) (ctx : Ctx) (e : PExpr) : Str → Str → Str → Str → Prop
  | nil {pre s : Str} : Row E ctx e pre s [] s
  | cons {pre s a1 b1 a2 b : Str} {v : PV} {g : VFrame} : Ok E ctx e [] pre s v a1 b1 g →
      Row E ctx e (pre ++ a1) b1 a2 b → Row E ctx e pre s (a1 ++ a2) b

theorem Row.split {e : PExpr} (h : Row E ctx e pre s a b) : s = a ++ b := by
  induction h with
  | nil => rfl
  | cons h1 _ ih => rw [h1.1, ih, List.append_assoc]

theorem erJ_rep {e : PExpr} {one : Bool} {acc : List PV} (h : ErJ E ctx (.rep fr e one acc) pre s p k) :
    ∃ a b, Row E ctx e pre s a b ∧ Er E ctx e [] (pre ++ a) b p k := by
  obtain ⟨l, r, h, hl⟩ := h
  generalize hj : Job.rep fr e one acc = j at h
  generalize hc : cur pre s = c at h
  induction h generalizing acc pre s with
  | rep_next h1 h2 _ ih2 =>
    cases hj
    subst hc
    rw [head_append] at hl
    rcases hl with hl | ⟨h0, hl⟩
    · exact ⟨[], s, .nil, by rw [List.append_nil]; exact ⟨_, _, h1, hl⟩⟩
    · obtain ⟨a1, b1, rfl, k1⟩ := okJ_of_big h1 h0
      obtain ⟨a, b, h3, h4⟩ := ih2 hl rfl rfl
      exact ⟨a1 ++ a, b, .cons k1 h3, by rw [← List.append_assoc]; exact h4⟩
  | rep_stop h _ _ =>
    cases hj; subst hc
    exact ⟨[], s, .nil, by rw [List.append_nil]; exact ⟨_, _, h, hl⟩⟩
  | rep_fail h =>
    cases hj; subst hc
    exact ⟨[], s, .nil, by rw [List.append_nil]; exact ⟨_, _, h, hl⟩⟩
  | rep_panic h =>
    cases hj; subst hc
    exact ⟨[], s, .nil, by rw [List.append_nil]; exact ⟨_, _, h, hl⟩⟩
  | _ => cases hj

theorem er_star {e : PExpr} (h : Er E ctx (.star e) fr pre s p k) :
    ∃ a b, Row E ctx e pre s a b ∧ Er E ctx e [] (pre ++ a) b p k := by
  obtain ⟨l, r, h, hl⟩ := h
  cases h with
  | star h => exact erJ_rep ⟨_, _, h, hl⟩

theorem er_plus {e : PExpr} (h : Er E ctx (.plus e) fr pre s p k) :
    ∃ a b, Row E ctx e pre s a b ∧ Er E ctx e [] (pre ++ a) b p k := by
  obtain ⟨l, r, h, hl⟩ := h
  cases h with
  | plus h => exact erJ_rep ⟨_, _, h, hl⟩

/-- A throw whose handler is a state rule records the error of the state. -/
theorem er_throw {x : FailLabel} {y : Rule} {st : StateCode} {rs : List (FailLabel × PExpr)}
    (hx : grammar y = .state st) (hc : ctx.recov = (x, .rule y) :: rs)
    (h : Er E ctx (.throw x) fr pre s p k) : p = locAt pre s ∧ k = runState st := by
  obtain ⟨l, r, h, hl⟩ := h
  cases h with
  | throw h =>
    rw [hc] at h
    cases h with
    | throw_skip hne _ => exact absurd rfl hne
    | throw_ok h =>
      have := er_rule ⟨_, _, h, hl⟩
      rw [hx] at this
      exact er_state this
    | throw_panic h =>
      have := er_rule ⟨_, _, h, hl⟩
      rw [hx] at this
      exact er_state this
    | throw_next h _ =>
      exfalso
      cases h with
      | rule_stop h _ => rw [hx] at h; cases h

end Aql
