import Verif.Spec.Blame
import Verif.Proofs.Validate
/-!
The validator's error is at the position to blame.
-/

namespace Aql

open Spec

variable {E : Env}

theorem mustBeOneOf_some {ts : List ValType} {vs : List Val} {v : Val} (h : mustBeOneOf ts vs = some v) :
    ∃ l r, vs = l ++ v :: r ∧ (∀ x ∈ l, x.type ∈ ts) ∧ v.type ∉ ts := by
  induction vs with
  | nil => cases h
  | cons w vs ih =>
    simp only [mustBeOneOf] at h
    by_cases hw : w.type ∈ ts
    · rw [if_pos hw] at h
      obtain ⟨l, r, rfl, h1, h2⟩ := ih h
      exact ⟨w :: l, r, rfl, by simpa using ⟨hw, h1⟩, h2⟩
    · rw [if_neg hw] at h
      cases h
      exact ⟨[], vs, rfl, by simp, hw⟩

theorem checkValues_some {op : Op} {vs : List Val} {e : PErr} (h : checkValues op vs = some e) :
    op ≠ .EXS ∧ op ≠ .NUL ∧ ∃ l v r, vs = l ++ v :: r ∧ (∀ x ∈ l, OperandOk op x) ∧ ¬ OperandOk op v ∧
      e.pos = v.pos := by
  have key : ∀ {ts : List ValType} {m : Str}, (∀ x : Val, OperandOk op x ↔ x.type ∈ ts) →
      ((mustBeOneOf ts vs).map fun v => (⟨v.pos, m⟩ : PErr)) = some e →
      ∃ l v r, vs = l ++ v :: r ∧ (∀ x ∈ l, OperandOk op x) ∧ ¬ OperandOk op v ∧ e.pos = v.pos := by
    intro ts m ht hm
    rw [Option.map_eq_some_iff] at hm
    obtain ⟨v, hv, rfl⟩ := hm
    obtain ⟨l, r, h1, h2, h3⟩ := mustBeOneOf_some hv
    exact ⟨l, v, r, h1, fun x hx => (ht x).2 (h2 x hx), fun h => h3 ((ht v).1 h), rfl⟩
  cases op <;> simp only [checkValues, reduceCtorEq] at h <;>
    exact ⟨by decide, by decide, key (by intro x; simp [OperandOk]) h⟩

theorem checkValues_none' {op : Op} {vs : List Val} (h : checkValues op vs = none) :
    (∀ v ∈ vs, OperandOk op v) ∨ op = .EXS ∨ op = .NUL := by
  cases op <;> simp_all [checkValues, OperandOk, mustBeOneOf_none]

theorem listOk_congr {op : Op} {l l' : List Val} (h : l.map (Val.toStr E) = l'.map (Val.toStr E)) :
    ListOk E op l ↔ ListOk E op l' := by unfold ListOk; rw [h]

theorem checkRValsLoop_some {op : Op} {n : Nat} {seen : List Str} {i : Nat} {vs : List Val} {e : PErr}
    {l : List Val} (hs : ∀ s, s ∈ seen ↔ s ∈ l.map (Val.toStr E)) (hl : ListOk E op l)
    (h : checkRValsLoop E op n seen i vs = some e) :
    ∃ l' v r, vs = l' ++ v :: r ∧ ListOk E op (l ++ l') ∧ ¬ ListOk E op (l ++ l' ++ [v]) ∧ e.pos = v.pos := by
  induction vs generalizing seen i l with
  | nil => cases h
  | cons v vs ih =>
    simp only [checkRValsLoop] at h
    by_cases h1 : v.toStr E ∈ seen
    · rw [if_pos h1] at h
      cases h
      refine ⟨[], v, vs, rfl, by simpa using hl, ?_, rfl⟩
      rintro ⟨hn, -⟩
      rw [hs] at h1
      simp only [List.append_nil, List.map_append, List.map_cons, List.map_nil] at hn
      rw [List.nodup_append] at hn
      exact hn.2.2 _ h1 _ (List.mem_singleton_self _) rfl
    rw [if_neg h1] at h
    by_cases h2 : op = .EQ ∧ ((v.toStr E = "true".toList ∧ "false".toList ∈ seen) ∨
        (v.toStr E = "false".toList ∧ "true".toList ∈ seen))
    · rw [if_pos h2] at h
      cases h
      refine ⟨[], v, vs, rfl, by simpa using hl, ?_, rfl⟩
      rintro ⟨-, hc⟩
      apply hc h2.1
      simp only [List.append_nil, List.map_append, List.map_cons, List.map_nil, List.mem_append, List.mem_singleton]
      rw [← hs, ← hs]
      rcases h2.2 with ⟨a, b⟩ | ⟨a, b⟩
      · exact ⟨.inr a.symm, .inl b⟩
      · exact ⟨.inl b, .inr a.symm⟩
    rw [if_neg h2] at h
    have hl' : ListOk E op (l ++ [v]) := by
      refine ⟨?_, fun hop => ?_⟩
      · rw [List.map_append, List.nodup_append]
        refine ⟨hl.1, by simp, ?_⟩
        intro a ha b hb
        simp only [List.map_cons, List.map_nil, List.mem_singleton] at hb
        rintro rfl
        rw [← hs, hb] at ha
        exact h1 ha
      · simp only [List.map_append, List.map_cons, List.map_nil, List.mem_append, List.mem_singleton]
        rw [← hs, ← hs]
        rintro ⟨a | a, b | b⟩
        · exact hl.2 hop ⟨(hs _).1 a, (hs _).1 b⟩
        · exact h2 ⟨hop, .inr ⟨b.symm, a⟩⟩
        · exact h2 ⟨hop, .inl ⟨a.symm, b⟩⟩
        · rw [← b] at a; exact absurd a (by decide)
    have hs' : ∀ s, s ∈ v.toStr E :: seen ↔ s ∈ (l ++ [v]).map (Val.toStr E) := by
      intro s
      simp only [List.mem_cons, hs, List.map_append, List.map_cons, List.map_nil, List.mem_append,
        List.not_mem_nil, or_false]
      exact or_comm
    obtain ⟨l', w, r, h3, h4, h5, h6⟩ := ih hs' hl' h
    exact ⟨v :: l', w, r, by simp [h3], by simpa using h4, by simpa using h5, h6⟩

theorem listOk_short {op : Op} {vs : List Val} (h : checkRVals E op vs = none) : ListOk E op vs :=
  (checkRVals_none E op vs).1 h

/-- The validator's error is at the position to blame. -/
theorem validateExpr_blames {op : Op} {vs : List Val} {pos : Pos} {e : PErr}
    (h : validateExpr E op vs pos = .ok (some e)) : Blames E op vs pos e.pos := by
  unfold validateExpr at h
  cases h1 : checkValues op vs with
  | some e1 =>
    rw [h1] at h
    simp only [Except.ok.injEq, Option.some.injEq] at h
    subst h
    obtain ⟨a, b, l, v, r, h2, h3, h4, h5⟩ := checkValues_some h1
    rw [h5]
    exact .operand a b h2 h3 h4
  | none =>
    rw [h1] at h
    have hty := checkValues_none' h1
    cases h2 : checkArity op vs pos with
    | some e2 =>
      rw [h2] at h
      simp only [Except.ok.injEq, Option.some.injEq] at h
      subst h
      have hp : e2.pos = pos := by
        cases op <;> simp only [checkArity] at h2 <;> split at h2 <;> cases h2 <;> rfl
      rw [hp]
      refine .arity hty fun h => ?_
      rw [(checkArity_none op vs pos).2 h] at h2
      cases h2
    | none =>
      rw [h2] at h
      have har := (checkArity_none op vs pos).1 h2
      have hty := (checkValues_none op vs har).1 h1
      cases h3 : checkRVals E op vs with
      | some e3 =>
        rw [h3] at h
        simp only [Except.ok.injEq, Option.some.injEq] at h
        subst h
        unfold checkRVals at h3
        split at h3
        · cases h3
        · obtain ⟨l, v, r, h4, h5, h6, h7⟩ := checkRValsLoop_some (l := []) (by simp)
            ⟨by simp, by simp⟩ h3
          rw [h7]
          exact .value hty har h4 (by simpa using h5) (by simpa using h6)
      | none =>
        rw [h3] at h
        have hl := (checkRVals_none E op vs).1 h3
        by_cases hop : op = .BET
        · subst hop
          obtain ⟨a, b, rfl⟩ := List.length_eq_two.1 har
          obtain ⟨r, hr, hi⟩ := checkBetween_spec a b
          dsimp only at h
          have hb : ¬ BetweenOk a b := by
            intro hb
            rw [hr, hi.2 hb] at h
            cases h
          have hp : e.pos = b.pos := by
            simp only [checkBetween, ne_eq, not_true_eq_false, if_false] at h
            cases a <;> cases b <;> simp only [Except.ok.injEq] at h <;> first
              | (split at h <;> cases h; rfl)
              | (cases h; rfl)
          rw [hp]
          exact .order hty hl rfl rfl hb
        · simp [checkBetween, hop] at h

/-- Two splits of a list at the first element with a property are the same. -/
theorem first_unique {α : Type} {P : List α → Prop} {vs l l' r r' : List α} {v v' : α}
    (h : vs = l ++ v :: r) (h' : vs = l' ++ v' :: r') (h1 : P l) (h2 : ¬ P (l ++ [v])) (h1' : P l')
    (h2' : ¬ P (l' ++ [v'])) (mono : ∀ a b, P (a ++ b) → P a) : v = v' := by
  subst h
  rcases Nat.lt_trichotomy l.length l'.length with hlt | heq | hlt
  · exfalso
    have : l' = l ++ v :: (l'.drop (l.length + 1)) := by
      have e := congrArg (List.take l'.length) h'
      rw [List.take_left, List.take_append] at e
      rw [← e, List.take_of_length_le (Nat.le_of_lt hlt)]
      obtain ⟨k, hk⟩ : ∃ k, l'.length - l.length = k + 1 := ⟨l'.length - l.length - 1, by omega⟩
      rw [hk]
      simp [List.drop_append]
    rw [this] at h1'
    exact h2 (mono _ (l'.drop (l.length + 1)) (by simpa using h1'))
  · have := List.append_inj h' heq
    simp at this
    exact this.2.1
  · exfalso
    have : l = l' ++ v' :: (l.drop (l'.length + 1)) := by
      have e := congrArg (List.take l.length) h'
      rw [List.take_left, List.take_append] at e
      rw [e, List.take_of_length_le (Nat.le_of_lt hlt)]
      obtain ⟨k, hk⟩ : ∃ k, l.length - l'.length = k + 1 := ⟨l.length - l'.length - 1, by omega⟩
      rw [hk]
      simp [List.drop_append]
    rw [this] at h1
    exact h2' (mono _ (l.drop (l'.length + 1)) (by simpa using h1))

theorem listOk_mono {op : Op} (a b : List Val) (h : ListOk E op (a ++ b)) : ListOk E op a := by
  obtain ⟨h1, h2⟩ := h
  rw [List.map_append] at h1 h2
  refine ⟨(List.nodup_append.1 h1).1, fun hop hc => h2 hop ⟨?_, ?_⟩⟩
  · exact List.mem_append_left _ hc.1
  · exact List.mem_append_left _ hc.2

/-- Only one position is to blame. -/
theorem blames_unique {op : Op} {vs : List Val} {pos p p' : Pos} (h : Blames E op vs pos p)
    (h' : Blames E op vs pos p') : p = p' := by
  have notAll : ∀ {l v r}, vs = l ++ v :: r → ¬ OperandOk op v → ¬ ∀ x ∈ vs, OperandOk op x := by
    intro l v r h hv ha
    exact hv (ha v (by rw [h]; simp))
  have notList : ∀ {l v r}, vs = l ++ v :: r → ¬ ListOk E op (l ++ [v]) → ¬ ListOk E op vs := by
    intro l v r h hv ha
    exact hv (listOk_mono _ r (by rw [h] at ha; simpa using ha))
  cases h with
  | @operand l v r a b c d e =>
    cases h' with
    | @operand l' v' r' a' b' c' d' e' =>
      rw [first_unique (P := fun l => ∀ x ∈ l, OperandOk op x) c c' d
        (fun h => e (h v (by simp))) d' (fun h => e' (h v' (by simp)))
        (fun a b h x hx => h x (by simp [hx]))]
    | arity a' b' =>
      rcases a' with h | h | h
      · exact absurd h (notAll c e)
      · exact absurd h a
      · exact absurd h b
    | value a' => exact absurd a' (notAll c e)
    | order a' => exact absurd a' (notAll c e)
  | arity a b =>
    cases h' with
    | operand a' b' c' d' e' =>
      rcases a with h | h | h
      · exact absurd h (notAll c' e')
      · exact absurd h a'
      · exact absurd h b'
    | arity => rfl
    | value a' b' => exact absurd b' b
    | order a' b' c' d' e' => subst c'; subst d'; exact absurd rfl b
  | @value l v r a b c d e =>
    cases h' with
    | operand a' b' c' d' e' => exact absurd a (notAll c' e')
    | arity a' b' => exact absurd b b'
    | @value l' v' r' a' b' c' d' e' =>
      rw [first_unique (P := fun l => ListOk E op l) c c' d e d' e' listOk_mono]
    | order a' b' => exact absurd b' (notList c e)
  | order a b c d e =>
    cases h' with
    | operand a' b' c' d' e' => exact absurd a (notAll c' e')
    | arity a' b' => subst c; subst d; exact absurd rfl b'
    | value a' b' c' d' e' => exact absurd b (notList c' e')
    | order a' b' c' d' e' => rw [d] at d'; cases d'; rfl

end Aql
