import Verif.Proofs.CostFlat
import Verif.Proofs.Stack
/-!
Calls that are nested in each other are evaluations: the recursion is never deeper than the number of
expressions that the parser evaluates.
-/

namespace Aql

variable {E : Env}

/-- The same result, and every nested call is an evaluation. -/
def Paid (p : Option (Res × Nat)) (o : Out) : Prop := ∀ r d l r', p = some (r, d) → o = .done l r' → r = r' ∧ d ≤ ticks l

theorem paid_none {o : Out} : Paid none o := by intro r d l r' h; cases h

theorem paid_leaf {r : Res} {l : List Ev} : Paid (some (r, 0)) (.done l r) := by
  intro r d l r' h h'
  cases h; cases h'
  exact ⟨rfl, Nat.zero_le _⟩

theorem paid_bind {p q : Option (Res × Nat)} {o : Out} {k : Res → Out} (h : Paid p o) (g : Res → Option (Res × Nat))
    (hg : ∀ r, Paid (g r) (k r)) (h0 : p = none → q = none) (h1 : ∀ r d, p = some (r, d) → q = deeper d (g r)) :
    Paid q (o.andThen k) := by
  intro r d l r' hq ho
  rcases p with _ | ⟨r1, d1⟩
  · rw [h0 rfl] at hq; cases hq
  · rw [h1 _ _ rfl] at hq
    rcases o with _ | ⟨l1, r1'⟩
    · cases ho
    · obtain ⟨rfl, hd1⟩ := h _ _ _ _ rfl rfl
      rcases hg1 : g r1 with _ | ⟨r2, d2⟩
      · rw [hg1] at hq; cases hq
      · rw [hg1] at hq
        cases hq
        simp only [Out.andThen] at ho
        rcases hk : k r1 with _ | ⟨l2, r2'⟩
        · rw [hk] at ho; cases ho
        · rw [hk] at ho
          cases ho
          obtain ⟨rfl, hd2⟩ := hg r1 _ _ _ _ hg1 hk
          refine ⟨rfl, ?_⟩
          rw [ticks_append]
          show max d1 d2 ≤ _
          omega

theorem deeper_leaf (d : Nat) (r : Res) : some (r, d) = deeper d (some (r, 0)) := by simp [deeper]

/-- Every evaluation is paid for. -/
def EvPaid (dv : DEval) (ev : Eval) : Prop := ∀ ctx e fr c, Paid (dv ctx e fr c) (ev ctx e fr c)

theorem dSeqLoop_paid {dv : DEval} {ev : Eval} (h : EvPaid dv ev) (ctx : Ctx) (st : Cursor) (es : List PExpr) :
    ∀ acc fr c, Paid (dSeqLoop dv ctx st es acc fr c) (seqLoop ev ctx st es acc fr c) := by
  induction es with
  | nil => intro acc fr c; exact paid_leaf
  | cons e es ih =>
    intro acc fr c
    rw [seqLoop, dSeqLoop]
    refine paid_bind (h ctx e fr c) (fun
      | .ok v c' fr' => dSeqLoop dv ctx st es (acc ++ [v]) fr' c'
      | .fail _ => some (.fail st, 0)
      | .panic p c' => some (.panic p c', 0)) ?_ ?_ ?_
    · rintro (_ | _ | _)
      · exact ih _ _ _
      · exact paid_leaf
      · exact paid_leaf
    · intro h0; rw [h0]
    · intro r d h1; rw [h1]; cases r <;> first | rfl | exact deeper_leaf _ _

theorem dChoiceLoop_paid {dv : DEval} {ev : Eval} (h : EvPaid dv ev) (ctx : Ctx) (fr : VFrame) (es : List PExpr) :
    ∀ c, Paid (dChoiceLoop dv ctx fr es c) (choiceLoop ev ctx fr es c) := by
  induction es with
  | nil => intro c; exact paid_leaf
  | cons e es ih =>
    intro c
    rw [choiceLoop, dChoiceLoop]
    refine paid_bind (h ctx e [] c) (fun
      | .ok v c' _ => some (.ok v c' fr, 0)
      | .fail c' => dChoiceLoop dv ctx fr es c'
      | .panic p c' => some (.panic p c', 0)) ?_ ?_ ?_
    · rintro (_ | _ | _)
      · exact paid_leaf
      · exact ih _
      · exact paid_leaf
    · intro h0; rw [h0]
    · intro r d h1; rw [h1]; cases r <;> first | rfl | exact deeper_leaf _ _

theorem dRepLoop_paid {dv : DEval} {ev : Eval} (h : EvPaid dv ev) (ctx : Ctx) (fr : VFrame) (e : PExpr) (one : Bool)
    (k : Nat) : ∀ acc c, Paid (dRepLoop dv ctx fr e one k acc c) (repLoop ev ctx fr e one k acc c) := by
  induction k with
  | zero => intro acc c; exact paid_none
  | succ k ih =>
    intro acc c
    rw [repLoop, dRepLoop]
    refine paid_bind (h ctx e [] c) (fun
      | .ok v c' _ => dRepLoop dv ctx fr e one k (acc ++ [v]) c'
      | .fail c' => some (if one ∧ acc = [] then .fail c' else .ok (.list acc) c' fr, 0)
      | .panic p c' => some (.panic p c', 0)) ?_ ?_ ?_
    · rintro (_ | _ | _)
      · exact ih _ _
      · exact paid_leaf
      · exact paid_leaf
    · intro h0; rw [h0]
    · intro r d h1; rw [h1]; cases r <;> first | rfl | exact deeper_leaf _ _

theorem dThrowLoop_paid {dv : DEval} {ev : Eval} (h : EvPaid dv ev) (ctx : Ctx) (x : FailLabel) (fr : VFrame)
    (rs : List (FailLabel × PExpr)) : ∀ c, Paid (dThrowLoop dv ctx x fr rs c) (throwLoop ev ctx x fr rs c) := by
  induction rs with
  | nil => intro c; exact paid_leaf
  | cons p rs ih =>
    obtain ⟨l', e⟩ := p
    intro c
    rw [throwLoop, dThrowLoop]
    by_cases hl : l' = x
    · rw [if_pos hl, if_pos hl]
      refine paid_bind (h ctx e fr c) (fun
        | .ok v c' fr' => some (.ok v c' fr', 0)
        | .fail c' => dThrowLoop dv ctx x fr rs c'
        | .panic p c' => some (.panic p c', 0)) ?_ ?_ ?_
      · rintro (_ | _ | _)
        · exact paid_leaf
        · exact ih _
        · exact paid_leaf
      · intro h0; rw [h0]
      · intro r d h1; rw [h1]; cases r <;> first | rfl | exact deeper_leaf _ _
    · rw [if_neg hl, if_neg hl]; exact ih _

theorem dStep_paid {dv : DEval} {ev : Eval} (h : EvPaid dv ev) (k : Nat) : EvPaid (dStep E k dv) (step E k ev) := by
  intro ctx e fr c
  cases e with
  | action a e =>
    simp only [dStep, step]
    refine paid_bind (h ctx e fr c) (fun
      | .ok _ c' fr' =>
        match runAct E a fr' (textOf c c') c.loc with
        | .error p => some (.panic p c', 0)
        | .ok (v, _) => some (.ok v c' fr', 0)
      | .fail c' => some (.fail c', 0)
      | .panic p c' => some (.panic p c', 0)) ?_ ?_ ?_
    · rintro (⟨v, c', fr'⟩ | _ | _)
      · dsimp only [actStep]
        rcases runAct E a fr' (textOf c c') c.loc with p | ⟨v, _ | er⟩ <;> exact paid_leaf
      · exact paid_leaf
      · exact paid_leaf
    · intro h0; rw [h0]
    · intro r d h1
      rw [h1]
      cases r with
      | ok v c' fr' =>
        dsimp only
        rcases runAct E a fr' (textOf c c') c.loc with p | ⟨v, er⟩ <;> exact deeper_leaf _ _
      | fail c' => exact deeper_leaf _ _
      | panic p c' => exact deeper_leaf _ _
  | seq es => exact dSeqLoop_paid h ctx c es [] fr c
  | choice es => exact dChoiceLoop_paid h ctx fr es c
  | label x e =>
    simp only [dStep, step]
    refine paid_bind (h ctx e [] c) (fun
      | .ok v c' _ => some (.ok v c' ((x, v) :: fr), 0)
      | .fail c' => some (.fail c', 0)
      | .panic p c' => some (.panic p c', 0)) ?_ ?_ ?_
    · rintro (_ | _ | _) <;> exact paid_leaf
    · intro h0; rw [h0]
    · intro r d h1; rw [h1]; cases r <;> exact deeper_leaf _ _
  | rule x =>
    simp only [dStep, step]
    refine paid_bind (h ctx (grammar x) [] c) (fun
      | .ok v c' _ => some (.ok v c' fr, 0)
      | .fail c' => some (.fail c', 0)
      | .panic p c' => some (.panic p c', 0)) ?_ ?_ ?_
    · rintro (_ | _ | _) <;> exact paid_leaf
    · intro h0; rw [h0]
    · intro r d h1; rw [h1]; cases r <;> exact deeper_leaf _ _
  | lit val ic want =>
    simp only [dStep, step]
    rcases litLoop E ic val c with ⟨l, _ | c'⟩ <;> exact paid_leaf
  | cls chars ranges ic inv want =>
    simp only [dStep, step]
    rcases c.rest with _ | ⟨s, t⟩
    · exact paid_leaf
    · dsimp only
      by_cases hm : clsMatch E chars ranges ic inv s.rune = true
      · rw [if_pos hm, if_pos hm]; exact paid_leaf
      · rw [if_neg hm, if_neg hm]; exact paid_leaf
  | any =>
    simp only [dStep, step]
    rcases c.rest with _ | ⟨s, t⟩ <;> exact paid_leaf
  | not e =>
    simp only [dStep, step]
    refine paid_bind (h { ctx with inv := !ctx.inv } e [] c) (fun
      | .ok _ _ _ => some (.fail c, 0)
      | .fail _ => some (.ok .nil c fr, 0)
      | .panic p c' => some (.panic p c', 0)) ?_ ?_ ?_
    · rintro (_ | _ | _) <;> exact paid_leaf
    · intro h0; rw [h0]
    · intro r d h1; rw [h1]; cases r <;> exact deeper_leaf _ _
  | star e => exact dRepLoop_paid h ctx fr e false k [] c
  | plus e => exact dRepLoop_paid h ctx fr e true k [] c
  | opt e =>
    simp only [dStep, step]
    refine paid_bind (h ctx e [] c) (fun
      | .ok v c' _ => some (.ok v c' fr, 0)
      | .fail c' => some (.ok .nil c' fr, 0)
      | .panic p c' => some (.panic p c', 0)) ?_ ?_ ?_
    · rintro (_ | _ | _) <;> exact paid_leaf
    · intro h0; rw [h0]
    · intro r d h1; rw [h1]; cases r <;> exact deeper_leaf _ _
  | recover x e hd => exact h _ e fr c
  | throw x => exact dThrowLoop_paid h ctx x fr ctx.recov c
  | state s => exact paid_leaf

theorem dRun_paid (f : Nat) : EvPaid (dRun E f) (run E f) := by
  induction f with
  | zero => intro ctx e fr c; exact paid_none
  | succ f ih =>
    intro ctx e fr c r d l r' hd hr
    obtain ⟨_, k, hg, rfl, hs⟩ := dRun_succ hd
    cases hg
    rw [run] at hr
    simp only [Out.andThen] at hr
    rcases ho : step E f (run E f) ctx e fr c with _ | ⟨l1, r1⟩
    · rw [ho] at hr; cases hr
    · rw [ho] at hr
      cases hr
      obtain ⟨h1, h2⟩ := dStep_paid ih f _ _ _ _ _ _ _ _ hs ho
      refine ⟨h1, ?_⟩
      show _ ≤ ticks (.tick :: l1)
      rw [ticks_cons]
      omega

end Aql
