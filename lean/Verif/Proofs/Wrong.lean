import Verif.Proofs.Expected
import Verif.Spec.Wrong
/-!
What is wrong about a text is said: every run on it records that error first.
-/

namespace Aql

open Spec

variable {E : Env} {ctx : Ctx} {fr fr' : VFrame} {pre s a b : Str} {v : PV} {p : Loc} {k : RecErr}

/-! ### Runs with a first error -/

/-- Every run records the error `k` at `p` first. -/
def WhJ (E : Env) (ctx : Ctx) (j : Job) (pre s : Str) (p : Loc) (k : RecErr) : Prop :=
  ∀ l r, Big E ctx j (cur pre s) l r → (errorsOf l).head? = some (p, k)

/-- `WhJ` of an expression. -/
abbrev Wh (E : Env) (ctx : Ctx) (e : PExpr) (fr : VFrame) := WhJ E ctx (.expr e fr)

/-- The run of an expression that is read without errors. -/
theorem Ok.only {e : PExpr} {l : List Ev} {r : Res} (h : Ok E ctx e fr pre s v a b fr')
    (hb : Big E ctx (.expr e fr) (cur pre s) l r) : errorsOf l = [] ∧ r = .ok v (cur (pre ++ a) b) fr' := by
  obtain ⟨-, l', h1, h2⟩ := h
  obtain ⟨rfl, rfl⟩ := h1.det hb
  exact ⟨h2, rfl⟩

theorem No.only {e : PExpr} {l : List Ev} {r : Res} (h : No E ctx e fr pre s)
    (hb : Big E ctx (.expr e fr) (cur pre s) l r) : errorsOf l = [] ∧ ∃ c, r = .fail c := by
  obtain ⟨l', c, h1, h2⟩ := h
  obtain ⟨rfl, rfl⟩ := h1.det hb
  exact ⟨h2, c, rfl⟩

theorem head_left {l l' : List Ev} (h : (errorsOf l).head? = some (p, k)) :
    (errorsOf (l ++ l')).head? = some (p, k) := head_append.2 (.inl h)

theorem head_right {l l' : List Ev} (h0 : errorsOf l = []) (h : (errorsOf l').head? = some (p, k)) :
    (errorsOf (l ++ l')).head? = some (p, k) := head_append.2 (.inr ⟨h0, h⟩)

theorem wh_rule {x : Rule} (h : Wh E ctx (grammar x) [] pre s p k) : Wh E ctx (.rule x) fr pre s p k := by
  intro l r hb
  cases hb with
  | rule_ok hb => exact head_tick.2 (h _ _ hb)
  | rule_stop hb _ => exact head_tick.2 (h _ _ hb)

theorem wh_label {x : PLabel} {e : PExpr} (h : Wh E ctx e [] pre s p k) : Wh E ctx (.label x e) fr pre s p k := by
  intro l r hb
  cases hb with
  | label_ok hb => exact head_tick.2 (h _ _ hb)
  | label_stop hb _ => exact head_tick.2 (h _ _ hb)

theorem wh_recover {x : FailLabel} {e y : PExpr} (h : Wh E { ctx with recov := (x, y) :: ctx.recov } e fr pre s p k) :
    Wh E ctx (.recover x e y) fr pre s p k := by
  intro l r hb
  cases hb with
  | recover hb => exact head_tick.2 (h _ _ hb)

theorem wh_action {act : Act} {e : PExpr} (h : Wh E ctx e fr pre s p k) : Wh E ctx (.action act e) fr pre s p k := by
  intro l r hb
  cases hb with
  | action_ok hb _ => exact head_tick.2 (h _ _ hb)
  | action_panic hb _ => exact head_tick.2 (h _ _ hb)
  | action_stop hb _ => exact head_tick.2 (h _ _ hb)
  | action_err hb _ => exact head_tick.2 (head_left (h _ _ hb))

/-- The error of an action. -/
theorem wh_act {act : Act} {e : PExpr} {v' : PV} (h : Ok E ctx e fr pre s v a b fr')
    (hr : runAct E act fr' a (locAt pre s) = .ok (v', some k)) : Wh E ctx (.action act e) fr pre s (locAt pre s) k := by
  intro l r hb
  have hs := h.1
  subst hs
  cases hb with
  | action_ok hb h2 =>
    obtain ⟨-, h3⟩ := h.only hb
    cases h3
    rw [textOf_cur] at h2
    rw [show (cur pre (a ++ b)).loc = locAt pre (a ++ b) from rfl, hr] at h2
    cases h2
  | action_panic hb h2 =>
    obtain ⟨-, h3⟩ := h.only hb
    cases h3
    rw [textOf_cur] at h2
    rw [show (cur pre (a ++ b)).loc = locAt pre (a ++ b) from rfl, hr] at h2
    cases h2
  | action_stop hb h2 =>
    obtain ⟨-, rfl⟩ := h.only hb
    exact absurd h2 (by simp [Res.stops])
  | action_err hb h2 =>
    obtain ⟨h0, h3⟩ := h.only hb
    cases h3
    rw [textOf_cur] at h2
    rw [show (cur pre (a ++ b)).loc = locAt pre (a ++ b) from rfl, hr] at h2
    cases h2
    exact head_tick.2 (head_right h0 rfl)

/-- One part of a sequence records the error, those before it are read. -/
def WhS (E : Env) (ctx : Ctx) : List PExpr → VFrame → Str → Str → Loc → RecErr → Prop
  | [], _, _, _, _, _ => False
  | e :: es, fr, pre, s, p, k => Wh E ctx e fr pre s p k ∨
      ∃ v1 a1 b1 fr1, Ok E ctx e fr pre s v1 a1 b1 fr1 ∧ WhS E ctx es fr1 (pre ++ a1) b1 p k

theorem whJ_seq {st : Cursor} {es : List PExpr} {acc : List PV} (h : WhS E ctx es fr pre s p k) :
    WhJ E ctx (.seq st es acc fr) pre s p k := by
  induction es generalizing acc fr pre s with
  | nil => exact h.elim
  | cons e es ih =>
    intro l r hb
    rcases h with h | ⟨v1, a1, b1, fr1, h1, h⟩
    · cases hb with
      | seq_cons hb _ => exact head_left (h _ _ hb)
      | seq_fail hb => exact h _ _ hb
      | seq_panic hb => exact h _ _ hb
    · cases hb with
      | seq_cons hb h2 =>
        obtain ⟨h0, h3⟩ := h1.only hb
        cases h3
        exact head_right h0 (ih h _ _ h2)
      | seq_fail hb => exact absurd (h1.only hb).2 (by simp)
      | seq_panic hb => exact absurd (h1.only hb).2 (by simp)

theorem wh_seq {es : List PExpr} (h : WhS E ctx es fr pre s p k) : Wh E ctx (.seq es) fr pre s p k := by
  intro l r hb
  cases hb with
  | seq hb => exact head_tick.2 (whJ_seq h _ _ hb)

/-- One alternative records the error, those before it do not match. -/
def WhC (E : Env) (ctx : Ctx) : List PExpr → Str → Str → Loc → RecErr → Prop
  | [], _, _, _, _ => False
  | e :: es, pre, s, p, k => Wh E ctx e [] pre s p k ∨ (No E ctx e [] pre s ∧ WhC E ctx es pre s p k)

theorem whJ_choice {es : List PExpr} (h : WhC E ctx es pre s p k) : WhJ E ctx (.choice fr es) pre s p k := by
  induction es with
  | nil => exact h.elim
  | cons e es ih =>
    intro l r hb
    rcases h with h | ⟨h1, h⟩
    · cases hb with
      | choice_ok hb => exact h _ _ hb
      | choice_panic hb => exact h _ _ hb
      | choice_next hb _ => exact head_left (h _ _ hb)
    · cases hb with
      | choice_ok hb => obtain ⟨-, _, h3⟩ := h1.only hb; cases h3
      | choice_panic hb => obtain ⟨-, _, h3⟩ := h1.only hb; cases h3
      | choice_next hb h2 =>
        obtain ⟨h0, -⟩ := h1.only hb
        have := hb.fail_back
        subst this
        exact head_right h0 (ih h _ _ h2)

theorem wh_choice {es : List PExpr} (h : WhC E ctx es pre s p k) : Wh E ctx (.choice es) fr pre s p k := by
  intro l r hb
  cases hb with
  | choice hb => exact head_tick.2 (whJ_choice h _ _ hb)

theorem whJ_rep {e : PExpr} {one : Bool} {acc : List PV} (h : Row E ctx e pre s a b) (hw : Wh E ctx e [] (pre ++ a) b p k) :
    WhJ E ctx (.rep fr e one acc) pre s p k := by
  induction h generalizing acc with
  | nil =>
    intro l r hb
    rw [List.append_nil] at hw
    cases hb with
    | rep_next hb _ => exact head_left (hw _ _ hb)
    | rep_stop hb _ => exact hw _ _ hb
    | rep_fail hb => exact hw _ _ hb
    | rep_panic hb => exact hw _ _ hb
  | cons h1 _ ih =>
    intro l r hb
    rw [← List.append_assoc] at hw
    cases hb with
    | rep_next hb h2 =>
      obtain ⟨h0, h3⟩ := h1.only hb
      cases h3
      exact head_right h0 (ih hw _ _ h2)
    | rep_stop hb _ => exact absurd (h1.only hb).2 (by simp)
    | rep_fail hb => exact absurd (h1.only hb).2 (by simp)
    | rep_panic hb => exact absurd (h1.only hb).2 (by simp)

theorem wh_star {e : PExpr} (h : Row E ctx e pre s a b) (hw : Wh E ctx e [] (pre ++ a) b p k) :
    Wh E ctx (.star e) fr pre s p k := by
  intro l r hb
  cases hb with
  | star hb => exact head_tick.2 (whJ_rep h hw _ _ hb)

/-- A throw whose handler is a state rule. -/
theorem wh_throw {x : FailLabel} {y : Rule} {st : StateCode} {rs : List (FailLabel × PExpr)}
    (hx : grammar y = .state st) (hc : ctx.recov = (x, .rule y) :: rs) :
    Wh E ctx (.throw x) fr pre s (locAt pre s) (runState st) := by
  have hy : ∀ {l r}, Big E ctx (.expr (.rule y) fr) (cur pre s) l r →
      (errorsOf l).head? = some (locAt pre s, runState st) := by
    intro l r hb
    cases hb with
    | rule_ok hb => rw [hx] at hb; cases hb; rfl
    | rule_stop hb _ => rw [hx] at hb; cases hb; rfl
  intro l r hb
  cases hb with
  | throw hb =>
    rw [hc] at hb
    cases hb with
    | throw_skip hne _ => exact absurd rfl hne
    | throw_ok hb => exact head_tick.2 (hy hb)
    | throw_panic hb => exact head_tick.2 (hy hb)
    | throw_next hb _ => exact head_tick.2 (head_left (hy hb))

end Aql
