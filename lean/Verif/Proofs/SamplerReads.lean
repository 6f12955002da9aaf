import Verif.Proofs.Sampler
import Verif.Proofs.SamplerCost
import Verif.Spec.SampleReads
/-! Lemmas for C113: what a successful call reads and writes, exactly. -/

namespace Aql
open Spec

variable {D : Int}

/-- Sizes from a depth on. -/
def readSum (D depth : Int) (l : List (Nat × SJson)) : Nat :=
  ((l.filter fun x => depth + (x.1 : Int) ≤ D).map fun x => x.2.size).sum

/-- Lengths of paths behind `n` characters. -/
def writeSum (D depth : Int) (n : Nat) (l : List (List Str)) : Nat :=
  ((l.filter fun p => depth + (p.length : Int) ≤ D).map fun p => n + (parts p).length).sum

theorem readSum_append (depth : Int) (l m : List (Nat × SJson)) :
    readSum D depth (l ++ m) = readSum D depth l + readSum D depth m := by simp [readSum]

theorem writeSum_append (depth : Int) (n : Nat) (l m : List (List Str)) :
    writeSum D depth n (l ++ m) = writeSum D depth n l + writeSum D depth n m := by simp [writeSum]

theorem readSum_deep {depth : Int} (h : depth > D) (l : List (Nat × SJson)) : readSum D depth l = 0 := by
  unfold readSum
  rw [List.filter_eq_nil_iff.2]
  · rfl
  · intro x _
    simp only [decide_eq_true_eq]
    omega

theorem writeSum_deep {depth : Int} (h : depth > D) (n : Nat) (l : List (List Str)) : writeSum D depth n l = 0 := by
  unfold writeSum
  rw [List.filter_eq_nil_iff.2]
  · rfl
  · intro x _
    simp only [decide_eq_true_eq]
    omega

theorem readSum_under (depth : Int) (l : List (Nat × SJson)) :
    readSum D depth (l.map fun x => (x.1 + 1, x.2)) = readSum D (depth + 1) l := by
  unfold readSum
  rw [List.filter_map, List.map_map]
  congr 2
  apply List.filter_congr
  intro x _
  simp only [Function.comp, decide_eq_decide]
  push_cast
  constructor <;> intro h <;> omega

theorem writeSum_under (depth : Int) (path k : Str) (l : List (List Str)) :
    writeSum D depth path.length (l.map (k :: ·)) = writeSum D (depth + 1) (path ++ keyPart k).length l := by
  unfold writeSum
  rw [List.filter_map, List.map_map]
  have e : (l.filter ((fun p : List Str => decide (depth + (p.length : Int) ≤ D)) ∘ (k :: ·))) =
      l.filter fun p => decide (depth + 1 + (p.length : Int) ≤ D) := by
    apply List.filter_congr
    intro x _
    simp only [Function.comp, List.length_cons, decide_eq_decide]
    push_cast
    constructor <;> intro h <;> omega
  rw [e]
  congr 1
  apply List.map_congr_left
  intro p _
  simp only [Function.comp, parts, List.flatMap_cons, List.length_append]
  omega

/-- After an error in an element the loop ends with an error. -/
theorem sampleItems_fails (vs : List SJson) (closed : Bool) (path : Str) (depth : Int) : ∀ (keys keys' : Option KeyMap),
    sampleItems D vs closed path depth keys true ≠ .ok (keys', false) := by
  induction vs with
  | nil => intro keys keys' h; rw [sampleItems] at h; simp at h
  | cons v vs ih => intro keys keys' h; rw [sampleItems, if_pos rfl] at h; exact ih _ _ h

mutual

theorem costV_exact : ∀ (v : SJson) (path : Str) (depth : Int) (keys keys' : Option KeyMap),
    (costV D v path depth keys).2 = .ok (keys', false) →
    (costV D v path depth keys).1 = ⟨readSum D depth (inside v), writeSum D depth path.length (scalarPaths v)⟩
  | .obj ms closed, path, depth, keys, keys', h => by
    rw [costV] at h ⊢
    by_cases hd : depth > D
    · rw [if_pos hd, readSum_deep hd, writeSum_deep hd]
    · rw [if_neg hd] at h ⊢
      have := costMembers_exact ms closed path depth keys keys' h
      simp only [this, Spent.add, inside, scalarPaths]
      congr 1
      · simp [readSum, show depth ≤ D by omega]
      · omega
  | .arr items closed, path, depth, keys, keys', h => by
    rw [costV] at h ⊢
    by_cases hd : depth > D
    · rw [if_pos hd, readSum_deep hd, writeSum_deep hd]
    · rw [if_neg hd] at h ⊢
      have := costItems_exact items closed path depth keys false keys' h
      simp only [this, Spent.add, inside, scalarPaths]
      congr 1
      · simp [readSum, show depth ≤ D by omega]
      · omega
  | .unknown, path, depth, keys, keys', h => by rw [costV]; rfl
  | .scalar, path, depth, keys, keys', h => by
    rw [costV] at h ⊢
    by_cases hd : depth > D
    · rw [if_pos hd, readSum_deep hd, writeSum_deep hd]
    · rw [if_neg hd] at h ⊢
      cases hr : record path keys with
      | error p => rw [hr] at h; cases h
      | ok m =>
        simp only [inside, scalarPaths]
        congr 1
        simp [writeSum, parts, show depth ≤ D by omega]

theorem costMembers_exact : ∀ (ms : List (Str × SJson)) (closed : Bool) (path : Str) (depth : Int)
    (keys keys' : Option KeyMap), (costMembers D ms closed path depth keys).2 = .ok (keys', false) →
    (costMembers D ms closed path depth keys).1 =
      ⟨readSum D depth (insideMembers ms), writeSum D depth path.length (memberPaths ms)⟩
  | [], closed, path, depth, keys, keys', h => by rw [costMembers]; rfl
  | (k, v) :: ms, closed, path, depth, keys, keys', h => by
    rw [costMembers] at h ⊢
    rcases hv : costV D v (path ++ keyPart k) (depth + 1) keys with ⟨n, p | ⟨keys1, _ | _⟩⟩ <;> rw [hv] at h
    · cases h
    · have h1 := costV_exact v (path ++ keyPart k) (depth + 1) keys keys1 (by rw [hv])
      have h2 := costMembers_exact ms closed path depth keys1 keys' h
      rw [hv] at h1
      simp only [h2, Spent.add, insideMembers, memberPaths, readSum_append, writeSum_append, readSum_under,
        writeSum_under]
      rw [show n = _ from h1]
    · cases h

theorem costItems_exact : ∀ (vs : List SJson) (closed : Bool) (path : Str) (depth : Int) (keys : Option KeyMap)
    (a : Bool) (keys' : Option KeyMap), (costItems D vs closed path depth keys a).2 = .ok (keys', false) →
    (costItems D vs closed path depth keys a).1 =
      ⟨readSum D depth (insideItems vs), writeSum D depth path.length (elementPaths vs)⟩
  | [], closed, path, depth, keys, a, keys', h => by rw [costItems]; rfl
  | v :: vs, closed, path, depth, keys, a, keys', h => by
    rw [costItems] at h ⊢
    by_cases ha : a = true
    · exfalso
      rw [if_pos ha, costItems_result] at h
      exact absurd h (by subst ha; exact sampleItems_fails vs closed path depth keys keys')
    · rw [if_neg ha] at h ⊢
      by_cases hv : v.isArr = true
      · rw [if_pos hv] at h ⊢
        rw [costItems_exact vs closed path depth keys a keys' h]
        simp [insideItems, elementPaths, hv]
      · rw [if_neg hv] at h ⊢
        rcases hc : costV D v path depth keys with ⟨n, p | ⟨keys1, b⟩⟩ <;> rw [hc] at h
        · cases h
        · have h2 := costItems_exact vs closed path depth keys1 b keys' h
          have hb : b = false := by
            cases b with
            | false => rfl
            | true =>
              exfalso
              dsimp only at h
              rw [costItems_result] at h
              exact sampleItems_fails vs closed path depth keys1 keys' h
          subst hb
          have h1 := costV_exact v path depth keys keys1 (by rw [hc])
          rw [hc] at h1
          simp only [h2, Spent.add, insideItems, elementPaths, readSum_append, writeSum_append, isList_eq, hv,
            Bool.false_eq_true, if_false]
          rw [show n = _ from h1]

end

/-! ### The paths -/

mutual

/-- The list has the paths of `LeafPath`. -/
theorem mem_scalarPaths : ∀ (v : SJson) (p : List Str), p ∈ scalarPaths v ↔ LeafPath v p
  | .scalar, p => by
    rw [scalarPaths, List.mem_singleton]
    exact ⟨by rintro rfl; exact .scalar, by rintro ⟨⟩; rfl⟩
  | .unknown, p => by
    rw [scalarPaths]
    exact ⟨nofun, nofun⟩
  | .obj ms closed, p => by
    rw [scalarPaths, mem_memberPaths ms p]
    constructor
    · rintro ⟨k, v, q, hm, rfl, hq⟩; exact .member hm hq
    · rintro (_ | ⟨hm, hq⟩ | _); exact ⟨_, _, _, hm, rfl, hq⟩
  | .arr items closed, p => by
    rw [scalarPaths, mem_elementPaths items p]
    constructor
    · rintro ⟨v, hm, ha, hq⟩; exact .element hm ha hq
    · rintro (_ | _ | ⟨hm, ha, hq⟩); exact ⟨_, hm, ha, hq⟩

theorem mem_memberPaths : ∀ (ms : List (Str × SJson)) (p : List Str),
    p ∈ memberPaths ms ↔ ∃ k v q, (k, v) ∈ ms ∧ p = k :: q ∧ LeafPath v q
  | [], p => by simp [memberPaths]
  | (k, v) :: ms, p => by
    rw [memberPaths, List.mem_append, mem_memberPaths ms p, List.mem_map]
    constructor
    · rintro (⟨q, hq, rfl⟩ | ⟨k', v', q, hm, rfl, hq⟩)
      · exact ⟨k, v, q, List.mem_cons_self .., rfl, (mem_scalarPaths v q).1 hq⟩
      · exact ⟨k', v', q, List.mem_cons_of_mem _ hm, rfl, hq⟩
    · rintro ⟨k', v', q, hm, rfl, hq⟩
      rcases List.mem_cons.1 hm with he | hm
      · cases he
        exact .inl ⟨q, (mem_scalarPaths v q).2 hq, rfl⟩
      · exact .inr ⟨k', v', q, hm, rfl, hq⟩

theorem mem_elementPaths : ∀ (vs : List SJson) (p : List Str),
    p ∈ elementPaths vs ↔ ∃ v, v ∈ vs ∧ isList v = false ∧ LeafPath v p
  | [], p => by simp [elementPaths]
  | v :: vs, p => by
    rw [elementPaths, List.mem_append, mem_elementPaths vs p]
    have h1 := mem_scalarPaths v p
    cases hv : isList v with
    | true =>
      rw [if_pos rfl]
      constructor
      · rintro (h | ⟨w, hw, h⟩)
        · cases h
        · exact ⟨w, List.mem_cons_of_mem _ hw, h⟩
      · rintro ⟨w, hw, h2, h⟩
        rcases List.mem_cons.1 hw with rfl | hw
        · rw [hv] at h2; cases h2
        · exact .inr ⟨w, hw, h2, h⟩
    | false =>
      rw [if_neg (by simp), h1]
      constructor
      · rintro (h | ⟨w, hw, h⟩)
        · exact ⟨v, List.mem_cons_self .., hv, h⟩
        · exact ⟨w, List.mem_cons_of_mem _ hw, h⟩
      · rintro ⟨w, hw, h2, h⟩
        rcases List.mem_cons.1 hw with rfl | hw
        · exact .inl h
        · exact .inr ⟨w, hw, h2, h⟩

end

end Aql
