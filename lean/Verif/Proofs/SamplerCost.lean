import Verif.Model.SamplerCost
import Mathlib.Tactic.Ring
import Mathlib.Tactic.Linarith
/-! Lemmas for C113: the counting sampler does what the other one does, and bounds on its counts. -/

namespace Aql

variable {D : Int}

mutual

theorem costV_result : ∀ (v : SJson) (path : Str) (depth : Int) (keys : Option KeyMap),
    (costV D v path depth keys).2 = sampleV D v path depth keys
  | .obj ms closed, path, depth, keys => by
    rw [costV, sampleV]
    split
    · rfl
    · exact costMembers_result ms closed path depth keys
  | .arr items closed, path, depth, keys => by
    rw [costV, sampleV]
    split
    · rfl
    · exact costItems_result items closed path depth keys false
  | .unknown, path, depth, keys => by rw [costV, sampleV]
  | .scalar, path, depth, keys => by
    rw [costV, sampleV]
    split
    · rfl
    · cases record path keys <;> rfl

theorem costMembers_result : ∀ (ms : List (Str × SJson)) (closed : Bool) (path : Str) (depth : Int) (keys : Option KeyMap),
    (costMembers D ms closed path depth keys).2 = sampleMembers D ms closed path depth keys
  | [], _, _, _, _ => by rw [costMembers, sampleMembers]
  | (k, v) :: ms, closed, path, depth, keys => by
    rw [costMembers, sampleMembers, ← costV_result v (path ++ keyPart k) (depth + 1) keys]
    rcases costV D v (path ++ keyPart k) (depth + 1) keys with ⟨n, p | ⟨keys', _ | _⟩⟩
    · rfl
    · exact costMembers_result ms closed path depth keys'
    · rfl

theorem costItems_result : ∀ (vs : List SJson) (closed : Bool) (path : Str) (depth : Int) (keys : Option KeyMap) (a : Bool),
    (costItems D vs closed path depth keys a).2 = sampleItems D vs closed path depth keys a
  | [], _, _, _, _, _ => by rw [costItems, sampleItems]
  | v :: vs, closed, path, depth, keys, a => by
    rw [costItems, sampleItems]
    split
    · exact costItems_result vs closed path depth keys a
    · split
      · exact costItems_result vs closed path depth keys a
      · rw [← costV_result v path depth keys]
        rcases costV D v path depth keys with ⟨n, p | ⟨keys', b⟩⟩
        · rfl
        · exact costItems_result vs closed path depth keys' b

end

theorem SJson.size_pos (v : SJson) : 1 ≤ v.size := by cases v <;> simp [SJson.size]

/-- How many levels of names may still be entered. -/
def levels (D depth : Int) : Nat := (D - depth + 1).toNat

mutual

theorem costV_reads : ∀ (v : SJson) (path : Str) (depth : Int) (keys : Option KeyMap),
    (costV D v path depth keys).1.reads ≤ (2 * levels D depth - (if v.isArr then 0 else 1)) * v.size
  | .obj ms closed, path, depth, keys => by
    rw [costV]
    split
    · exact Nat.zero_le _
    · rename_i h
      have h1 := costMembers_reads ms closed path depth keys
      have h2 : 2 * levels D depth - 1 = 2 * levels D (depth + 1) + 1 := by simp only [levels]; omega
      have h3 : SJson.sizeMembers ms ≤ (SJson.obj ms closed).size := by rw [SJson.size]; omega
      have h4 := Nat.mul_le_mul_left (2 * levels D (depth + 1)) h3
      simp only [SJson.isArr, h2, Spent.add, Nat.add_mul, Bool.false_eq_true, if_false]
      omega
  | .arr items closed, path, depth, keys => by
    rw [costV]
    split
    · exact Nat.zero_le _
    · rename_i h
      have h1 := costItems_reads items closed path depth keys false
      have h2 : 2 * levels D depth - 0 = (2 * levels D depth - 1) + 1 := by simp only [levels]; omega
      have h3 : SJson.sizeItems items ≤ (SJson.arr items closed).size := by rw [SJson.size]; omega
      have h4 := Nat.mul_le_mul_left (2 * levels D depth - 1) h3
      simp only [SJson.isArr, h2, Spent.add, Nat.add_mul, if_true]
      omega
  | .unknown, path, depth, keys => by rw [costV]; exact Nat.zero_le _
  | .scalar, path, depth, keys => by
    rw [costV]
    split
    · exact Nat.zero_le _
    · cases record path keys <;> exact Nat.zero_le _

theorem costMembers_reads : ∀ (ms : List (Str × SJson)) (closed : Bool) (path : Str) (depth : Int) (keys : Option KeyMap),
    (costMembers D ms closed path depth keys).1.reads ≤ 2 * levels D (depth + 1) * SJson.sizeMembers ms
  | [], _, _, _, _ => by rw [costMembers]; exact Nat.zero_le _
  | (k, v) :: ms, closed, path, depth, keys => by
    have h1 := costV_reads v (path ++ keyPart k) (depth + 1) keys
    have h2 : (2 * levels D (depth + 1) - (if v.isArr then 0 else 1)) * v.size ≤ 2 * levels D (depth + 1) * v.size :=
      Nat.mul_le_mul_right _ (Nat.sub_le _ _)
    rw [costMembers, SJson.sizeMembers, Nat.mul_add, Nat.mul_add]
    rcases hv : costV D v (path ++ keyPart k) (depth + 1) keys with ⟨n, p | ⟨keys', _ | _⟩⟩ <;> rw [hv] at h1 <;>
      simp only [Spent.add] at *
    · omega
    · have h3 := costMembers_reads ms closed path depth keys'
      omega
    · omega

theorem costItems_reads : ∀ (vs : List SJson) (closed : Bool) (path : Str) (depth : Int) (keys : Option KeyMap) (a : Bool),
    (costItems D vs closed path depth keys a).1.reads ≤ (2 * levels D depth - 1) * SJson.sizeItems vs
  | [], _, _, _, _, _ => by rw [costItems]; exact Nat.zero_le _
  | v :: vs, closed, path, depth, keys, a => by
    rw [costItems, SJson.sizeItems, Nat.mul_add]
    split
    · exact Nat.le_trans (costItems_reads vs closed path depth keys a) (Nat.le_add_left _ _)
    · split
      · exact Nat.le_trans (costItems_reads vs closed path depth keys a) (Nat.le_add_left _ _)
      · rename_i ha
        have h1 := costV_reads v path depth keys
        simp only [ha] at h1
        rcases hv : costV D v path depth keys with ⟨n, p | ⟨keys', b⟩⟩ <;> rw [hv] at h1 <;>
          simp only [Spent.add, Bool.false_eq_true, if_false] at *
        · omega
        · have h3 := costItems_reads vs closed path depth keys' b
          omega

end

mutual

/-- Scalars inside. -/
def SJson.leaves : SJson → Nat
  | .scalar => 1
  | .unknown => 0
  | .obj ms _ => SJson.leavesMembers ms
  | .arr items _ => SJson.leavesItems items

/-- Those of the members. -/
def SJson.leavesMembers : List (Str × SJson) → Nat
  | [] => 0
  | (_, v) :: ms => v.leaves + SJson.leavesMembers ms

/-- Those of the elements. -/
def SJson.leavesItems : List SJson → Nat
  | [] => 0
  | v :: vs => v.leaves + SJson.leavesItems vs

end

mutual

theorem leaves_le : ∀ v : SJson, v.leaves ≤ v.size
  | .scalar => by simp [SJson.leaves, SJson.size]
  | .unknown => by simp [SJson.leaves, SJson.size]
  | .obj ms _ => by have := leavesMembers_le ms; simp only [SJson.leaves, SJson.size]; omega
  | .arr items _ => by have := leavesItems_le items; simp only [SJson.leaves, SJson.size]; omega

theorem leavesMembers_le : ∀ ms : List (Str × SJson), SJson.leavesMembers ms ≤ SJson.sizeMembers ms
  | [] => Nat.le_refl _
  | (_, v) :: ms => by
    have := leaves_le v
    have := leavesMembers_le ms
    simp only [SJson.leavesMembers, SJson.sizeMembers]
    omega

theorem leavesItems_le : ∀ vs : List SJson, SJson.leavesItems vs ≤ SJson.sizeItems vs
  | [] => Nat.le_refl _
  | v :: vs => by
    have := leaves_le v
    have := leavesItems_le vs
    simp only [SJson.leavesItems, SJson.sizeItems]
    omega

end

theorem keyPart_length (k : Str) : (keyPart k).length ≤ k.length + 3 := by
  unfold keyPart; split <;> simp

mutual

theorem costV_writes : ∀ (v : SJson) (path : Str) (depth : Int) (keys : Option KeyMap),
    (costV D v path depth keys).1.writes ≤ v.leaves * (path.length + v.size)
  | .obj ms closed, path, depth, keys => by
    rw [costV]
    split
    · exact Nat.zero_le _
    · have h1 := costMembers_writes ms closed path depth keys
      have h2 := Nat.mul_le_mul_left (SJson.leavesMembers ms)
        (show path.length + SJson.sizeMembers ms ≤ path.length + (SJson.obj ms closed).size by rw [SJson.size]; omega)
      simp only [SJson.leaves, Spent.add]
      omega
  | .arr items closed, path, depth, keys => by
    rw [costV]
    split
    · exact Nat.zero_le _
    · have h1 := costItems_writes items closed path depth keys false
      have h2 := Nat.mul_le_mul_left (SJson.leavesItems items)
        (show path.length + SJson.sizeItems items ≤ path.length + (SJson.arr items closed).size by rw [SJson.size]; omega)
      simp only [SJson.leaves, Spent.add]
      omega
  | .unknown, path, depth, keys => by rw [costV]; exact Nat.zero_le _
  | .scalar, path, depth, keys => by
    rw [costV]
    split
    · exact Nat.zero_le _
    · cases record path keys <;> simp [SJson.leaves]

theorem costMembers_writes : ∀ (ms : List (Str × SJson)) (closed : Bool) (path : Str) (depth : Int) (keys : Option KeyMap),
    (costMembers D ms closed path depth keys).1.writes ≤ SJson.leavesMembers ms * (path.length + SJson.sizeMembers ms)
  | [], _, _, _, _ => by rw [costMembers]; exact Nat.zero_le _
  | (k, v) :: ms, closed, path, depth, keys => by
    have h1 := costV_writes v (path ++ keyPart k) (depth + 1) keys
    have hk := keyPart_length k
    have h2 : v.leaves * ((path ++ keyPart k).length + v.size) ≤ v.leaves * (path.length + SJson.sizeMembers ((k, v) :: ms)) :=
      Nat.mul_le_mul_left _ (by rw [List.length_append, SJson.sizeMembers]; omega)
    have h3 : ∀ keys', (costMembers D ms closed path depth keys').1.writes ≤
        SJson.leavesMembers ms * (path.length + SJson.sizeMembers ((k, v) :: ms)) := fun keys' =>
      Nat.le_trans (costMembers_writes ms closed path depth keys')
        (Nat.mul_le_mul_left _ (by rw [SJson.sizeMembers]; omega))
    rw [costMembers, SJson.leavesMembers, Nat.add_mul]
    rcases hv : costV D v (path ++ keyPart k) (depth + 1) keys with ⟨n, p | ⟨keys', _ | _⟩⟩ <;> rw [hv] at h1 <;>
      simp only [Spent.add] at *
    · omega
    · have := h3 keys'
      omega
    · omega

theorem costItems_writes : ∀ (vs : List SJson) (closed : Bool) (path : Str) (depth : Int) (keys : Option KeyMap) (a : Bool),
    (costItems D vs closed path depth keys a).1.writes ≤ SJson.leavesItems vs * (path.length + SJson.sizeItems vs)
  | [], _, _, _, _, _ => by rw [costItems]; exact Nat.zero_le _
  | v :: vs, closed, path, depth, keys, a => by
    have h3 : ∀ keys' b, (costItems D vs closed path depth keys' b).1.writes ≤
        SJson.leavesItems vs * (path.length + SJson.sizeItems (v :: vs)) := fun keys' b =>
      Nat.le_trans (costItems_writes vs closed path depth keys' b)
        (Nat.mul_le_mul_left _ (by rw [SJson.sizeItems]; omega))
    rw [costItems, SJson.leavesItems, Nat.add_mul]
    split
    · exact Nat.le_trans (h3 keys a) (Nat.le_add_left _ _)
    · split
      · exact Nat.le_trans (h3 keys a) (Nat.le_add_left _ _)
      · have h1 := costV_writes v path depth keys
        have h2 : v.leaves * (path.length + v.size) ≤ v.leaves * (path.length + SJson.sizeItems (v :: vs)) :=
          Nat.mul_le_mul_left _ (by rw [SJson.sizeItems]; omega)
        rcases hv : costV D v path depth keys with ⟨n, p | ⟨keys', b⟩⟩ <;> rw [hv] at h1 <;>
          simp only [Spent.add] at *
        · omega
        · have := h3 keys' b
          omega

end

/-- The characters of the keys of a map. -/
def KeyMap.chars (m : KeyMap) : Nat := (m.map fun e => e.1.length).sum

theorem chars_inc (m : KeyMap) (k : Str) : (m.inc k).chars ≤ m.chars + k.length := by
  induction m with
  | nil => simp [KeyMap.inc, KeyMap.chars]
  | cons e m ih =>
    obtain ⟨k', n⟩ := e
    rw [KeyMap.inc]
    split
    · simp [KeyMap.chars]
    · simp only [KeyMap.chars, List.map_cons, List.sum_cons] at *
      omega

/-- What a step adds to the keys is no more than what it writes. -/
def Grows (M : KeyMap) (r : Spent × GoM (Option KeyMap × Bool)) : Prop :=
  ∀ keys b, r.2 = .ok (keys, b) → ∃ M', keys = some M' ∧ M'.chars ≤ M.chars + r.1.writes

mutual

theorem costV_grows : ∀ (v : SJson) (path : Str) (depth : Int) (M : KeyMap), Grows M (costV D v path depth (some M))
  | .obj ms closed, path, depth, M => by
    rw [costV]
    split
    · intro keys b h; cases h; exact ⟨M, rfl, Nat.le_refl _⟩
    · intro keys b h
      obtain ⟨M', h1, h2⟩ := costMembers_grows ms closed path depth M keys b h
      exact ⟨M', h1, by simp only [Spent.add]; omega⟩
  | .arr items closed, path, depth, M => by
    rw [costV]
    split
    · intro keys b h; cases h; exact ⟨M, rfl, Nat.le_refl _⟩
    · intro keys b h
      obtain ⟨M', h1, h2⟩ := costItems_grows items closed path depth M false keys b h
      exact ⟨M', h1, by simp only [Spent.add]; omega⟩
  | .unknown, path, depth, M => by
    rw [costV]
    intro keys b h; cases h; exact ⟨M, rfl, Nat.le_refl _⟩
  | .scalar, path, depth, M => by
    rw [costV]
    split
    · intro keys b h; cases h; exact ⟨M, rfl, Nat.le_refl _⟩
    · cases path with
      | nil => intro keys b h; cases h
      | cons c k =>
        intro keys b h
        cases h
        refine ⟨_, rfl, ?_⟩
        have := chars_inc M k
        simp only [record, List.length_cons]
        omega

theorem costMembers_grows : ∀ (ms : List (Str × SJson)) (closed : Bool) (path : Str) (depth : Int) (M : KeyMap),
    Grows M (costMembers D ms closed path depth (some M))
  | [], _, _, _, M => by
    rw [costMembers]
    intro keys b h; cases h; exact ⟨M, rfl, Nat.le_refl _⟩
  | (k, v) :: ms, closed, path, depth, M => by
    have h1 := costV_grows v (path ++ keyPart k) (depth + 1) M
    rw [costMembers]
    rcases hv : costV D v (path ++ keyPart k) (depth + 1) (some M) with ⟨n, p | ⟨keys', _ | _⟩⟩ <;> rw [hv] at h1
    · intro keys b h; cases h
    · obtain ⟨M', rfl, h2⟩ := h1 _ _ rfl
      intro keys b h
      obtain ⟨M'', h3, h4⟩ := costMembers_grows ms closed path depth M' keys b h
      exact ⟨M'', h3, by simp only [Spent.add] at *; omega⟩
    · intro keys b h; cases h; exact h1 _ _ rfl

theorem costItems_grows : ∀ (vs : List SJson) (closed : Bool) (path : Str) (depth : Int) (M : KeyMap) (a : Bool),
    Grows M (costItems D vs closed path depth (some M) a)
  | [], _, _, _, M, _ => by
    rw [costItems]
    intro keys b h; cases h; exact ⟨M, rfl, Nat.le_refl _⟩
  | v :: vs, closed, path, depth, M, a => by
    rw [costItems]
    split
    · exact costItems_grows vs closed path depth M a
    · split
      · exact costItems_grows vs closed path depth M a
      · have h1 := costV_grows v path depth M
        rcases hv : costV D v path depth (some M) with ⟨n, p | ⟨keys', c⟩⟩ <;> rw [hv] at h1
        · intro keys b h; cases h
        · obtain ⟨M', rfl, h2⟩ := h1 _ _ rfl
          intro keys b h
          obtain ⟨M'', h3, h4⟩ := costItems_grows vs closed path depth M' c keys b h
          exact ⟨M'', h3, by simp only [Spent.add] at *; omega⟩

end

end Aql
