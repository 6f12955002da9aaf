import Verif.Proofs.SamplerCost
import Verif.Proofs.SamplerReads
import Verif.Props.Sampler
/-!
Property C113: what `Sample` reads and keeps (sampler/sampler.go:75-122).
-/

namespace Aql

open Spec

/-- The counts are those of a run with the same result as `Sample`. -/
theorem C113_same_result (s : Sampler) (d : SampleIn) :
    s.sample d = match d with
      | .empty => .error .outOfRange
      | .rejected => .ok (s, true)
      | .object ms closed => s.finish (costV s.maxDepth (.obj ms closed) [] 0 s.keys).2
      | .array items closed => s.finish (costV s.maxDepth (.arr items closed) [] 0 s.keys).2 := by
  cases d <;> simp only [Sampler.sample, costV_result]

/-- `Sample` reads the document at most twice for every level of names it may enter. -/
theorem C113_reads (s : Sampler) (d : SampleIn) :
    (s.spends d).reads ≤ 2 * (s.maxDepth + 1).toNat * d.size := by
  have e : levels s.maxDepth 0 = (s.maxDepth + 1).toNat := by simp [levels]
  cases d with
  | empty => exact Nat.zero_le _
  | rejected => exact Nat.zero_le _
  | object ms closed =>
    have := costV_reads (D := s.maxDepth) (.obj ms closed) [] 0 s.keys
    rw [e] at this
    exact Nat.le_trans this (Nat.mul_le_mul_right _ (Nat.sub_le _ _))
  | array items closed =>
    have := costV_reads (D := s.maxDepth) (.arr items closed) [] 0 s.keys
    rw [e] at this
    exact Nat.le_trans this (Nat.mul_le_mul_right _ (Nat.sub_le _ _))

/-- What a call that succeeds reads and writes, exactly: every object and array at most `maxDepth` names deep is
read once, with all that is in it, and every scalar at most as deep has its path written. -/
theorem C113_exact {s s' : Sampler} {d : SampleIn} (h : s.sample d = .ok (s', false)) :
    ∃ v, SampleIn.value? d = some v ∧ s.spends d = ⟨sizeWithin s.maxDepth v, pathsWithin s.maxDepth v⟩ := by
  have paths : ∀ v : SJson, (∀ p ∈ scalarPaths v, (p.length : Int) ≤ s.maxDepth → p ≠ []) →
      writeSum s.maxDepth 0 0 (scalarPaths v) = pathsWithin s.maxDepth v := by
    intro v hp
    unfold writeSum pathsWithin
    simp only [Int.zero_add]
    congr 1
    apply List.map_congr_left
    intro p hm
    obtain ⟨h1, h2⟩ := List.mem_filter.1 hm
    have hne := hp p h1 (by simpa using h2)
    have := parts_tail hne
    rw [← this, List.length_tail]
    have : 0 < (parts p).length := by
      cases p with
      | nil => exact absurd rfl hne
      | cons k p => simp [parts, keyPart_eq]
    omega
  have key : ∀ v : SJson, s.finish (sampleV s.maxDepth v [] 0 s.keys) = .ok (s', false) →
      (costV s.maxDepth v [] 0 s.keys).1 = ⟨sizeWithin s.maxDepth v, pathsWithin s.maxDepth v⟩ := by
    intro v h
    obtain ⟨keys, h1, rfl⟩ := finish_ok h
    have hvis := sampleV_ok s.maxDepth v [] 0 s.keys keys h1
    rw [← costV_result] at h1
    rw [costV_exact v [] 0 s.keys keys h1, ← paths]
    · congr 1
      unfold readSum sizeWithin
      simp only [Int.zero_add]
    · rintro p hp hl rfl
      refine hvis.1 [] ((mem_leavesV _ _ _ _).2 ⟨(mem_scalarPaths v []).1 hp, ?_⟩) rfl
      rw [Int.zero_add]
      exact hl
  cases d with
  | empty => cases h
  | rejected => cases h
  | object ms closed => exact ⟨_, rfl, key _ h⟩
  | array items closed => exact ⟨_, rfl, key _ h⟩

/-- The keys that a document adds have at most as many characters as the square of its size. -/
theorem C113_keys {s s' : Sampler} {d : SampleIn} {M : KeyMap} (hk : s.keys = some M)
    (h : s.sample d = .ok (s', false)) :
    (s'.entries).chars ≤ M.chars + d.size * d.size := by
  have key : ∀ v : SJson, s.finish (sampleV s.maxDepth v [] 0 s.keys) = .ok (s', false) →
      s'.entries.chars ≤ M.chars + v.size * v.size := by
    intro v h
    obtain ⟨keys, h1, rfl⟩ := finish_ok h
    rw [← costV_result, hk] at h1
    obtain ⟨M', rfl, h2⟩ := costV_grows v [] 0 M keys false h1
    have h3 := costV_writes (D := s.maxDepth) v [] 0 (some M)
    have h4 := Nat.mul_le_mul_right v.size (leaves_le v)
    simp only [List.length_nil, Nat.zero_add] at h3
    show M'.chars ≤ _
    omega
  cases d with
  | empty => cases h
  | rejected => cases h
  | object ms closed => exact key _ h
  | array items closed => exact key _ h

/-! ### both bounds are needed -/

/-- Objects inside each other. -/
def nestedS : Nat → SJson
  | 0 => .scalar
  | n + 1 => .obj [(['a'], nestedS n)] true

theorem nestedS_size (n : Nat) : (nestedS n).size = 6 * n + 1 := by
  induction n with
  | zero => rfl
  | succ n ih => simp only [nestedS, SJson.size, SJson.sizeMembers, ih, List.length_singleton]; omega

theorem nestedS_reads {D : Int} : ∀ (n : Nat) (path : Str) (depth : Int) (keys : Option KeyMap), depth + n ≤ D →
    n * n ≤ (costV D (nestedS n) path depth keys).1.reads
  | 0, _, _, _, _ => Nat.zero_le _
  | n + 1, path, depth, keys, h => by
    have ih := nestedS_reads (D := D) n (path ++ keyPart ['a']) (depth + 1) keys (by omega)
    have e : (n + 1) * (n + 1) = n * n + 2 * n + 1 := by ring
    have hs := nestedS_size (n + 1)
    rw [nestedS] at hs ⊢
    rw [costV, if_neg (show ¬ depth > D by omega), costMembers]
    simp only [Spent.add, hs]
    rcases hv : costV D (nestedS n) (path ++ keyPart ['a']) (depth + 1) keys with ⟨m, p | ⟨keys', _ | _⟩⟩ <;>
      rw [hv] at ih <;> simp only at * <;> omega

/-- Without a limit of the depth the square is reached: `n` objects inside each other. -/
theorem C113_reads_needed {s : Sampler} (n : Nat) (h : (n : Int) + 1 ≤ s.maxDepth) :
    ∃ d : SampleIn, d.size = 6 * n + 7 ∧ n * n ≤ (s.spends d).reads := by
  refine ⟨.object [(['a'], nestedS n)] true, nestedS_size (n + 1), ?_⟩
  have := nestedS_reads (D := s.maxDepth) (n + 1) [] 0 s.keys (by omega)
  have e : (n + 1) * (n + 1) = n * n + 2 * n + 1 := by ring
  show _ ≤ (costV s.maxDepth (nestedS (n + 1)) [] 0 s.keys).1.reads
  omega

/-- Scalars under the names `b`, `bb`, … -/
def manyNames (n : Nat) : List (Str × SJson) := (List.range n).map fun i => (List.replicate i 'b', .scalar)

theorem scalars_sampled {D : Int} (path : Str) (depth : Int) (hd : depth + 1 ≤ D) :
    ∀ (ks : List Str) (M : KeyMap), ∃ M', sampleMembers D (ks.map fun k => (k, SJson.scalar)) true path depth (some M) =
      .ok (some M', false)
  | [], M => ⟨M, by simp [sampleMembers]⟩
  | k :: ks, M => by
    have hp : path ++ keyPart k ≠ [] := by unfold keyPart; split <;> simp
    obtain ⟨c, r, hr⟩ := List.exists_cons_of_ne_nil hp
    obtain ⟨M', h⟩ := scalars_sampled path depth hd ks (M.inc r)
    refine ⟨M', ?_⟩
    rw [List.map_cons, sampleMembers, sampleV, if_neg (by omega), hr]
    exact h

/-- One long name over many short ones. -/
def longName (n : Nat) : SampleIn := .object [(List.replicate (n * n) 'k', .obj (manyNames n) true)] true

theorem longName_size (n : Nat) : (longName n).size ≤ 6 * (n * n) + 7 := by
  have h : ∀ xs : List Nat, (∀ x ∈ xs, x < n) →
      SJson.sizeMembers (xs.map fun i => (List.replicate i 'b', SJson.scalar)) ≤ xs.length * (n + 4) := by
    intro xs
    induction xs with
    | nil => intro _; exact Nat.zero_le _
    | cons x xs ih =>
      intro hx
      have h1 := hx x (by simp)
      have h2 := ih fun y hy => hx y (by simp [hy])
      simp only [List.map_cons, SJson.sizeMembers, SJson.size, List.length_replicate, List.length_cons, Nat.succ_mul]
      omega
  have h1 := h (List.range n) (by simp)
  rw [List.length_range] at h1
  have h2 : n * (n + 4) = n * n + 4 * n := by ring
  have h3 : n ≤ n * n := by
    cases n with
    | zero => exact Nat.le_refl _
    | succ n => exact Nat.le_mul_of_pos_left _ (Nat.succ_pos _)
  simp only [longName, SampleIn.size, SJson.size, SJson.sizeMembers, List.length_replicate, manyNames]
  omega

/-- No linear bound: the keys that a single document of size `m` adds may have more than `c * m` characters. -/
theorem C113_keys_not_linear {D : Int} (hD : 2 ≤ D) (c : Nat) :
    ∃ (d : SampleIn) (s : Sampler), (Sampler.new D).sample d = .ok (s, false) ∧ c * d.size < s.entries.chars := by
  obtain ⟨n, hn⟩ : ∃ n, n = 13 * c + 1 := ⟨_, rfl⟩
  obtain ⟨M', h⟩ := scalars_sampled (D := D) (keyPart (List.replicate (n * n) 'k')) (0 + 1) (by omega)
    ((List.range n).map fun i => List.replicate i 'b') []
  rw [List.map_map] at h
  have hs : (Sampler.new D).sample (longName n) = .ok (⟨D, some M', 1⟩, false) := by
    simp only [Sampler.sample, longName, Sampler.new]
    rw [sampleV, if_neg (show ¬ (0 : Int) > D by omega), sampleMembers, sampleV, if_neg (show ¬ (0 + 1 : Int) > D by omega),
      List.nil_append, manyNames]
    erw [h]
    rfl
  refine ⟨longName n, _, hs, ?_⟩
  obtain ⟨hk, hnd⟩ := C44_keys (Samples.cons hs (.nil _))
  -- the keys
  obtain ⟨L, hL⟩ : ∃ L, L = (List.range n).map fun i => dotted [List.replicate (n * n) 'k', List.replicate i 'b'] := ⟨_, rfl⟩
  have hd : ∀ i, dotted [List.replicate (n * n) 'k', List.replicate i 'b'] =
      List.replicate (n * n) 'k' ++ '.' :: List.replicate i 'b' := by
    intro i
    have h1 : ∀ (c : Char) m, c ≠ ' ' → segment (List.replicate m c) = List.replicate m c := by
      intro c m hc
      rw [segment, if_neg]
      intro h
      exact hc (List.eq_of_mem_replicate h).symm
    simp [dotted, h1, List.intercalate]
  have hLn : L.Nodup := by
    rw [hL]
    refine List.Nodup.map ?_ List.nodup_range
    intro i j hij
    simp only [hd] at hij
    have := congrArg List.length hij
    simp at this
    exact this
  have hsub : L ⊆ M'.map (·.1) := by
    intro x hx
    rw [hL, List.mem_map] at hx
    obtain ⟨i, hi, rfl⟩ := hx
    refine (hk _).2 ⟨longName n, by simp, _, LeafPath.member (List.mem_singleton.2 rfl)
      (.member (k := List.replicate i 'b') (v := .scalar) ?_ .scalar), ?_, rfl⟩
    · exact List.mem_map.2 ⟨i, hi, rfl⟩
    · simpa using hD
  have hlong : ∀ ks : KeyMap, ∀ q, (ks.map (·.1)).countP (fun k => q ≤ k.length) * q ≤ ks.chars := by
    intro ks q
    induction ks with
    | nil => simp [KeyMap.chars]
    | cons e ks ih =>
      simp only [KeyMap.chars, List.map_cons, List.sum_cons, List.countP_cons] at *
      split
      · rename_i he
        have : q ≤ e.1.length := by simpa using he
        rw [Nat.add_mul]
        omega
      · rw [Nat.add_zero]
        omega
  have hcount : n ≤ (M'.map (·.1)).countP (fun k => n * n ≤ k.length) := by
    rw [List.countP_eq_length_filter]
    have h1 : L ⊆ (M'.map (·.1)).filter fun k => n * n ≤ k.length := by
      intro x hx
      refine List.mem_filter.2 ⟨hsub hx, ?_⟩
      rw [hL, List.mem_map] at hx
      obtain ⟨i, -, rfl⟩ := hx
      simp [hd]
    have h2 := (List.subperm_of_subset hLn h1).length_le
    rw [hL] at h2
    simpa using h2
  have h1 := hlong M' (n * n)
  have h2 := Nat.mul_le_mul_right (n * n) hcount
  have h3 := Nat.mul_le_mul_left c (longName_size n)
  have h4 : 1 ≤ n * n := Nat.mul_pos (by omega) (by omega)
  show c * (longName n).size < M'.chars
  have h5 : n * (n * n) = 13 * c * (n * n) + n * n := by rw [hn]; ring
  have h6 : c * (6 * (n * n) + 7) ≤ 13 * c * (n * n) := by nlinarith
  omega

/-- A call that succeeds, with objects and arrays within the depth and scalars beyond it. -/
example :
    let ms := [(['a'], SJson.arr [.obj [(['b'], .scalar), (['c'], .obj [(['d'], .scalar)] true)] true, .arr [.scalar] true] true),
      (['e'], .scalar)]
    ((Sampler.new 2).sample (.object ms true)).toOption.map (·.2) = some false ∧
      (Sampler.new 2).spends (.object ms true) = ⟨82, 6⟩ ∧
      sizeWithin 2 (.obj ms true) = 82 ∧ pathsWithin 2 (.obj ms true) = 6 := by decide +kernel

/-- Two levels of names, three scalars: what is read and what is kept. -/
example :
    let d := SampleIn.object [(['a'], .arr [.obj [(['b'], .scalar), (['c'], .scalar)] true, .scalar] true)] true
    (Sampler.new 3).spends d = ⟨48, 10⟩ ∧ d.size = 21 ∧
      (((Sampler.new 3).sample d).toOption.map fun r => (r.1.entries.chars, r.2)) = some (7, false) := by
  decide +kernel

end Aql
