import Verif.Props.Sampler
/-!
Properties C45 and C48 (sampler/sampler.go): exactly when the refuted claims hold.
-/

namespace Aql

open Spec

/-- **C45, exactly.** The depth is no limit for some documents exactly if every scalar they have is also found under its
key within the depth, and a negative depth exactly if they have no scalars at all. -/
theorem C45_unlimited_exact {maxDepth : Int} {ds : List SampleIn} {s : Sampler}
    (h : Samples (Sampler.new maxDepth) ds s) :
    ((∀ k, k ∈ s.getKeys ↔ ∃ d ∈ ds, ∃ path, DocLeaf d path ∧ dotted path = k) ↔
      ∀ d ∈ ds, ∀ path, DocLeaf d path → ∃ d' ∈ ds, ∃ path', DocLeaf d' path' ∧ (path'.length : Int) ≤ maxDepth ∧
        dotted path' = dotted path) ∧
    (maxDepth < 0 → ((∀ k, k ∈ s.getKeys ↔ ∃ d ∈ ds, ∃ path, DocLeaf d path ∧ dotted path = k) ↔
      ∀ d ∈ ds, ∀ path, ¬ DocLeaf d path)) := by
  have key : (∀ k, k ∈ s.getKeys ↔ ∃ d ∈ ds, ∃ path, DocLeaf d path ∧ dotted path = k) ↔
      ∀ d ∈ ds, ∀ path, DocLeaf d path → ∃ d' ∈ ds, ∃ path', DocLeaf d' path' ∧ (path'.length : Int) ≤ maxDepth ∧
        dotted path' = dotted path := by
    constructor
    · intro hk d hd path hp
      exact ((C44_keys h).1 _).1 ((hk _).2 ⟨d, hd, path, hp, rfl⟩)
    · intro hk k
      rw [(C44_keys h).1]
      constructor
      · rintro ⟨d, hd, p, hp, _, he⟩
        exact ⟨d, hd, p, hp, he⟩
      · rintro ⟨d, hd, p, hp, rfl⟩
        exact hk d hd p hp
  refine ⟨key, fun hm => key.trans ⟨fun hk d hd path hp => ?_, fun hk d hd path hp => absurd hp (hk d hd path)⟩⟩
  obtain ⟨_, _, p, _, hl, _⟩ := hk d hd path hp
  omega

-- a depth of one misses the inner scalar
example : ∃ s, Samples (Sampler.new 1)
    [.object [("a".toList, .obj [("b".toList, .scalar)] true), ("c".toList, .scalar)] true] s ∧
    s.getKeys = ["c".toList] := ⟨_, .cons rfl (.nil _), by decide +kernel⟩

open Classical in
/-- Documents with a key do not outnumber its scalars. -/
theorem documents_le_occurrences (maxDepth : Int) (ds : List SampleIn) (k : Str) :
    (ds.countP fun d => decide (HasKey maxDepth d k)) ≤ occurrences maxDepth ds k := by
  unfold occurrences
  induction ds with
  | nil => simp
  | cons d ds ih =>
    rw [List.map_cons, List.sum_cons, List.countP_cons]
    split
    · rename_i hd
      obtain ⟨p, hp, hl, he⟩ := of_decide_eq_true hd
      have : 0 < ((docLeaves maxDepth d).map dotted).count k :=
        List.count_pos_iff.2 (List.mem_map.2 ⟨p, (mem_docLeaves _ _ _).2 ⟨hp, hl⟩, he⟩)
      omega
    · omega

theorem mem_getKeys_occurrences {maxDepth : Int} {ds : List SampleIn} {s : Sampler}
    (h : Samples (Sampler.new maxDepth) ds s) (k : Str) : k ∈ s.getKeys ↔ 0 < occurrences maxDepth ds k := by
  obtain ⟨M, rfl, hM, hc⟩ := samples_new h
  show k ∈ M.map (·.1) ↔ _
  rw [hM.mem_keys, hc, count_flatMap]
  rfl

open Classical in
/-- **C48, exactly.** A key that is in enough of the documents is always selected. The selection of a key that was seen is
wrong exactly if too few documents have it, but they have enough scalars under it. -/
theorem C48_threshold_exact {maxDepth : Int} {ds : List SampleIn} {s : Sampler}
    (h : Samples (Sampler.new maxDepth) ds s) {p : Int} (hp : |p| ≤ 2 ^ 63) (hp1 : p ≤ 100)
    (hn : ds.length < 2 ^ 46) {k : Str} (hk : occurrences maxDepth ds k ≤ 2 ^ 53) (hs : k ∈ s.getKeys) :
    ((ds.length : Int) * p ≤ 100 * (ds.countP fun d => decide (HasKey maxDepth d k) : Nat) → k ∈ s.keysAtThreshold p) ∧
    (¬ (k ∈ s.keysAtThreshold p ↔
        (ds.length : Int) * p ≤ 100 * (ds.countP fun d => decide (HasKey maxDepth d k) : Nat)) ↔
      100 * ((ds.countP fun d => decide (HasKey maxDepth d k) : Nat) : Int) < ds.length * p ∧
        (ds.length : Int) * p ≤ 100 * (occurrences maxDepth ds k : Int)) := by
  have hle := documents_le_occurrences maxDepth ds k
  have h0 := (mem_getKeys_occurrences h k).1 hs
  rw [C48_occurrences h hp hp1 hn hk]
  generalize (ds.countP fun d => decide (HasKey maxDepth d k)) = c at *
  generalize (ds.length : Int) * p = t at *
  constructor
  · intro ht
    exact ⟨h0, by omega⟩
  · omega

-- three scalars in one of three documents: the selection is wrong for every threshold from 34 to 100 percent
example : ∃ s, Samples (Sampler.new 5) [.object [("a".toList, .arr [.scalar, .scalar, .scalar] true)] true, .object [] true,
    .object [] true] s ∧ "a".toList ∈ s.keysAtThreshold 34 ∧ "a".toList ∈ s.keysAtThreshold 100 ∧
    occurrences 5 [.object [("a".toList, .arr [.scalar, .scalar, .scalar] true)] true, .object [] true,
    .object [] true] "a".toList = 3 :=
  ⟨_, .cons rfl (.cons rfl (.cons rfl (.nil _))), by decide +kernel, by decide +kernel, by decide +kernel⟩

end Aql
