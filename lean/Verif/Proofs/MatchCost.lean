import Verif.Model.MatchCost
import Verif.Spec.Size
import Verif.Spec.Query
import Verif.Proofs.Match
import Mathlib.Tactic.Ring
/-! Lemmas for C112: the counting model answers as the other one does, and bounds on its count. -/

namespace Aql
open Spec

variable {E : Env}

/-! ### same results -/

theorem flatMapCost_result {α β : Type} {f : α → Nat × GoM (List β)} {g : α → GoM (List β)} {xs : List α}
    (h : ∀ x ∈ xs, (f x).2 = g x) : (flatMapCost f xs).2 = flatMapGo g xs := by
  induction xs with
  | nil => rfl
  | cons x xs ih =>
    have hx := h x (by simp)
    have ih := ih fun y hy => h y (by simp [hy])
    rw [flatMapCost, flatMapGo, ← hx]
    rcases f x with ⟨n, e | ys⟩
    · rfl
    · rw [← ih]
      rcases flatMapCost f xs with ⟨n', e | zs⟩ <;> rfl

theorem getObjectCost_result : ∀ (path : List Str) (d : Json), (getObjectCost E path d).2 = getObject E path d
  | [], _ => rfl
  | k :: rest, d => by
    rw [getObjectCost, getObject]
    rcases jsonGet E d k with e | _ | c
    · rfl
    · rfl
    · cases rest with
      | nil => rfl
      | cons k' rest =>
        cases c with
        | obj ms => exact getObjectCost_result (k' :: rest) _
        | arr items =>
          refine flatMapCost_result fun o _ => ?_
          split
          · exact getObjectCost_result (k' :: rest) o
          · rfl
        | _ => rfl

theorem exprCost_result (path : List Str) (exprs : List FieldExpr) (d : Json) :
    (exprCost E path exprs d).2 = exprResult E path exprs d := by
  rw [exprCost, exprResult, getField, ← getObjectCost_result]
  rcases getObjectCost E path d with ⟨n, e | vs⟩
  · rfl
  · dsimp only
    split <;> rfl

theorem cost_result (n : BoolNode) (d : Json) : ∀ a, (n.cost E d).2 = (n.result E d a).2 := by
  induction n with
  | and l r ihl ihr =>
    intro a
    have h1 := ihl (a ++ [false])
    have h2 := ihr (a ++ [true])
    rw [BoolNode.cost, BoolNode.result]
    rcases hl : l.cost E d with ⟨n1, e | _ | _⟩ <;> rcases hl' : l.result E d (a ++ [false]) with ⟨t1, e' | _ | _⟩ <;>
      rw [hl, hl'] at h1 <;> cases h1 <;> first
      | rfl
      | (rcases hr : r.cost E d with ⟨n2, e | b⟩ <;> rcases hr' : r.result E d (a ++ [true]) with ⟨t2, e' | b'⟩ <;>
          rw [hr, hr'] at h2 <;> cases h2 <;> rfl)
  | or l r ihl ihr =>
    intro a
    have h1 := ihl (a ++ [false])
    have h2 := ihr (a ++ [true])
    rw [BoolNode.cost, BoolNode.result]
    rcases hl : l.cost E d with ⟨n1, e | _ | _⟩ <;> rcases hl' : l.result E d (a ++ [false]) with ⟨t1, e' | _ | _⟩ <;>
      rw [hl, hl'] at h1 <;> cases h1 <;> first
      | rfl
      | (rcases hr : r.cost E d with ⟨n2, e | b⟩ <;> rcases hr' : r.result E d (a ++ [true]) with ⟨t2, e' | b'⟩ <;>
          rw [hr, hr'] at h2 <;> cases h2 <;> rfl)
  | not e ih =>
    intro a
    have h1 := ih (a ++ [false])
    rw [BoolNode.cost, BoolNode.result]
    rcases hl : e.cost E d with ⟨n1, e1 | b⟩ <;> rcases hl' : e.result E d (a ++ [false]) with ⟨t1, e2 | b'⟩ <;>
      rw [hl, hl'] at h1 <;> cases h1 <;> rfl
  | expr path exprs name =>
    intro a
    rw [BoolNode.cost, BoolNode.result, ← exprCost_result]
    rcases exprCost E path exprs d with ⟨n, e | b⟩ <;> rfl
  | nil => intro a; rfl

/-! ### bounds -/

theorem weight_pos (d : Json) : 1 ≤ d.weight := by cases d <;> simp [Json.weight]

/-- The sizes of some values. -/
def weights (vs : List Json) : Nat := (vs.map Json.weight).sum

theorem weights_append (a b : List Json) : weights (a ++ b) = weights a + weights b := by simp [weights]

theorem weightItems_eq (items : List Json) : Json.weightItems items = weights items + items.length := by
  induction items with
  | nil => rfl
  | cons v vs ih => simp [Json.weightItems, weights, ih] at *; omega

theorem memberCost_le (k : Str) (ms : List (Str × Json)) : memberCost E k ms ≤ Json.weightMembers ms := by
  induction ms with
  | nil => exact Nat.le_refl _
  | cons m ms ih =>
    obtain ⟨raw, v⟩ := m
    rw [memberCost, Json.weightMembers]
    split
    · omega
    · split <;> omega

theorem getMember_weight {k : Str} {c : Json} : ∀ {ms : List (Str × Json)}, getMember E k ms = some c → c.weight ≤ Json.weightMembers ms
  | [], h => by cases h
  | (raw, v) :: ms, h => by
    rw [getMember] at h
    rw [Json.weightMembers]
    split at h
    · cases h
    · split at h
      · cases h; omega
      · have := getMember_weight h; omega

theorem jsonGet_weight {k : Str} {d c : Json} (hp : Plain d [k]) (h : jsonGet E d k = .ok (some c)) :
    c.weight ≤ d.weight := by
  cases d with
  | obj ms =>
    simp only [jsonGet, Except.ok.injEq] at h
    have := getMember_weight h
    simp only [Json.weight]
    omega
  | arr items =>
    obtain ⟨k', r, hk, h1⟩ := hp
    cases hk
    obtain ⟨x, s, hs, hx⟩ := h1 ⟨items, rfl⟩
    subst hs
    simp [jsonGet, hx] at h
  | _ => simp [jsonGet] at h

theorem getCost_le (d : Json) (k : Str) : getCost E d k ≤ d.weight := by
  unfold getCost
  split
  · have := memberCost_le (E := E) k ‹_›
    simp only [Json.weight]
    omega
  · exact Nat.le_refl _

theorem plain_isObj {k : Str} {rest : List Str} {o : Json} (h : o.isObj = true) : Plain o (k :: rest) :=
  ⟨k, rest, rfl, fun ⟨xs, hx⟩ => by subst hx; simp [Json.isObj] at h⟩

theorem plain_head {d : Json} {k : Str} {rest : List Str} (h : Plain d (k :: rest)) : Plain d [k] := by
  obtain ⟨k', r, e, h1⟩ := h
  cases e
  exact ⟨k, [], rfl, h1⟩

/-- Parts found in the objects of an array weigh no more than the array. -/
theorem flatMapGo_weights {f : Json → GoM (List Json)} :
    ∀ {xs vs : List Json}, (∀ x ∈ xs, ∀ ys, f x = .ok ys → weights ys ≤ x.weight) → flatMapGo f xs = .ok vs →
      weights vs ≤ weights xs
  | [], vs, _, h => by cases h; exact Nat.le_refl _
  | x :: xs, vs, hf, h => by
    rw [flatMapGo] at h
    cases hx : f x with
    | error e => rw [hx] at h; cases h
    | ok ys =>
      rw [hx] at h
      cases hs : flatMapGo f xs with
      | error e => simp only [hs] at h; cases h
      | ok zs =>
        simp only [hs] at h
        cases h
        have h1 := hf x (by simp) ys hx
        have h2 := flatMapGo_weights (fun y hy => hf y (by simp [hy])) hs
        rw [weights_append]
        simp only [weights, List.map_cons, List.sum_cons] at *
        omega

/-- What a path leads to are separate parts of the document. -/
theorem getObject_weights : ∀ {path : List Str} {d : Json} {vs : List Json}, Plain d path → getObject E path d = .ok vs →
    weights vs ≤ d.weight
  | [], _, _, _, h => by cases h
  | k :: rest, d, vs, hp, h => by
    rw [getObject] at h
    cases hg : jsonGet E d k with
    | error e => rw [hg] at h; cases h
    | ok o =>
      cases o with
      | none => rw [hg] at h; cases h; exact Nat.zero_le _
      | some c =>
        have hc := jsonGet_weight (plain_head hp) hg
        cases rest with
        | nil => rw [hg] at h; cases h; simpa [weights] using hc
        | cons k' rest =>
          rw [hg] at h
          cases c with
          | obj ms => exact Nat.le_trans (getObject_weights (plain_isObj rfl) h) hc
          | arr items =>
            have := flatMapGo_weights (f := fun o => if o.isObj then getObject E (k' :: rest) o else .ok [])
              (fun x _ ys hy => by
                split at hy
                · exact getObject_weights (plain_isObj ‹_›) hy
                · cases hy; exact Nat.zero_le _) h
            rw [Json.weight, weightItems_eq] at hc
            omega
          | _ => cases h; exact Nat.zero_le _

theorem flatMapCost_le {f : Json → Nat × GoM (List Json)} {c : Nat} :
    ∀ {xs : List Json}, (∀ x ∈ xs, (f x).1 ≤ c * x.weight) → (flatMapCost f xs).1 ≤ c * weights xs
  | [], _ => Nat.zero_le _
  | x :: xs, hf => by
    have h1 := hf x (by simp)
    have h2 := flatMapCost_le (xs := xs) fun y hy => hf y (by simp [hy])
    have e : weights (x :: xs) = x.weight + weights xs := by simp [weights]
    rw [e, Nat.mul_add, flatMapCost]
    rcases hx : f x with ⟨n, er | ys⟩ <;> rw [hx] at h1
    · exact Nat.le_trans h1 (Nat.le_add_right _ _)
    · rcases hs : flatMapCost f xs with ⟨n', er | zs⟩ <;> rw [hs] at h2 <;> exact Nat.add_le_add h1 h2

theorem getObjectCost_le : ∀ {path : List Str} {d : Json}, Plain d path →
    (getObjectCost E path d).1 ≤ 2 * path.length * d.weight
  | [], _, h => by obtain ⟨_, _, e, _⟩ := h; cases e
  | k :: rest, d, hp => by
    have hk := getCost_le (E := E) d k
    have e : 2 * (k :: rest).length * d.weight = 2 * d.weight + 2 * rest.length * d.weight := by
      simp only [List.length_cons]; ring
    rw [e, getObjectCost]
    cases hg : jsonGet E d k with
    | error er => dsimp only; omega
    | ok o =>
      cases o with
      | none => dsimp only; omega
      | some c =>
        have hc := jsonGet_weight (plain_head hp) hg
        cases rest with
        | nil => dsimp only; omega
        | cons k' rest =>
          have hm := Nat.mul_le_mul_left (2 * (k' :: rest).length) hc
          cases c with
          | obj ms =>
            have := getObjectCost_le (path := k' :: rest) (plain_isObj (k := k') (rest := rest) (o := .obj ms) rfl)
            dsimp only
            omega
          | arr items =>
            have := flatMapCost_le (c := 2 * (k' :: rest).length) (xs := items)
              (f := fun o => if o.isObj then getObjectCost E (k' :: rest) o else (0, .ok []))
              (fun x _ => by
                split
                · exact getObjectCost_le (plain_isObj ‹_›)
                · exact Nat.zero_le _)
            have hw : weights items ≤ (Json.arr items).weight := by rw [Json.weight, weightItems_eq]; omega
            have := Nat.mul_le_mul_left (2 * (k' :: rest).length) hw
            dsimp only
            omega
          | _ => dsimp only; omega

theorem anyCost_le {α : Type} {cost : α → Nat} {p : α → GoM Bool} (xs : List α) :
    anyCost cost p xs ≤ (xs.map cost).sum := by
  induction xs with
  | nil => exact Nat.le_refl _
  | cons x xs ih =>
    rw [anyCost, List.map_cons, List.sum_cons]
    split <;> omega

theorem scalarsCost_le (vs : List Json) : scalarsCost vs ≤ weights vs := by
  induction vs with
  | nil => exact Nat.le_refl _
  | cons v vs ih =>
    have := weight_pos v
    have e : weights (v :: vs) = v.weight + weights vs := by simp [weights]
    rw [e]
    cases v <;> simp only [scalarsCost] <;> omega

theorem weights_filter (p : Json → Bool) (vs : List Json) : weights (vs.filter p) ≤ weights vs := by
  induction vs with
  | nil => exact Nat.le_refl _
  | cons v vs ih =>
    simp only [weights, List.filter_cons, List.map_cons, List.sum_cons] at *
    split
    · simp only [List.map_cons, List.sum_cons]; omega
    · omega

theorem scalarValues_weights (vs : List Json) : weights (scalarValues vs) ≤ weights vs := by
  induction vs with
  | nil => exact Nat.le_refl _
  | cons v vs ih =>
    have e : weights (v :: vs) = v.weight + weights vs := by simp [weights]
    have e2 : scalarValues (v :: vs) = scalarValues [v] ++ scalarValues vs := by simp [scalarValues]
    rw [e, e2, weights_append]
    refine Nat.add_le_add ?_ ih
    cases v with
    | arr items =>
      have := weights_filter (fun i => !i.isObj && !i.isArr) items
      have hw : weights items ≤ (Json.arr items).weight := by rw [Json.weight, weightItems_eq]; omega
      simp only [scalarValues, List.flatMap_cons, List.flatMap_nil, List.append_nil]
      omega
    | _ => simp [scalarValues, weights]

theorem length_le_weights (vs : List Json) : vs.length ≤ weights vs := by
  induction vs with
  | nil => exact Nat.le_refl _
  | cons v vs ih =>
    have := weight_pos v
    have e : weights (v :: vs) = v.weight + weights vs := by simp [weights]
    rw [e, List.length_cons]
    omega

theorem fieldExpr_cost_le (e : FieldExpr) {vs : List Json} (h : 0 < vs.length) : e.cost E vs ≤ 2 * weights vs := by
  have hl := length_le_weights vs
  have h1 := scalarsCost_le vs
  have h2 := scalarValues_weights vs
  have h3 : ∀ p, anyCost Json.weight p (scalarValues vs) ≤ weights (scalarValues vs) := fun p => anyCost_le _
  have h4 : ∀ p, anyCost (fun _ : Json => 1) p vs ≤ vs.length := fun p => by
    simpa using anyCost_le (cost := fun _ : Json => 1) (p := p) vs
  unfold FieldExpr.cost
  split
  · omega
  · have := h4 fun v => .ok (!v.isNull)
    omega
  · have := h3 (e.scalarTest E)
    omega

theorem exprCost_le {path : List Str} {exprs : List FieldExpr} {d : Json} (hp : Plain d path) :
    (exprCost E path exprs d).1 ≤ 2 * (path.length + exprs.length) * d.weight := by
  have h1 := getObjectCost_le (E := E) hp
  have h2 := getObjectCost_result (E := E) path d
  have e : 2 * (path.length + exprs.length) * d.weight = 2 * path.length * d.weight + exprs.length * (2 * d.weight) := by
    ring
  rw [e, exprCost]
  rcases hg : getObjectCost E path d with ⟨n, er | vs⟩ <;> rw [hg] at h1 h2
  · exact Nat.le_trans h1 (Nat.le_add_right _ _)
  · have hw := getObject_weights hp h2.symm
    dsimp only
    split
    · rename_i hl
      refine Nat.add_le_add h1 (Nat.le_trans (anyCost_le exprs) ?_)
      have : ∀ xs : List FieldExpr, (xs.map fun m => m.cost E vs).sum ≤ xs.length * (2 * d.weight) := by
        intro xs
        induction xs with
        | nil => exact Nat.zero_le _
        | cons x xs ih =>
          have := fieldExpr_cost_le (E := E) x hl
          rw [List.map_cons, List.sum_cons, List.length_cons, Nat.succ_mul]
          omega
      exact this exprs
    · exact Nat.le_trans h1 (Nat.le_add_right _ _)

end Aql
