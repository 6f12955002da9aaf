import Verif.Proofs.Sampler
import Verif.Proofs.Rounding
import Verif.Props.Frame
/-!
Properties C44–C50: the key sampler.
-/

namespace Aql

open Spec

/-- All the documents were sampled, in order, without error. -/
inductive Samples : Sampler → List SampleIn → Sampler → Prop
  | nil (s) : Samples s [] s
  | cons {s s1 s' d ds} : s.sample d = .ok (s1, false) → Samples s1 ds s' → Samples s (d :: ds) s'

/-- The leaf paths the sampler visits in a document. -/
def docLeaves (m : Int) : SampleIn → List (List Str)
  | .object ms closed => leavesV m (.obj ms closed) 0
  | .array items closed => leavesV m (.arr items closed) 0
  | _ => []

theorem mem_docLeaves (m : Int) (d : SampleIn) (p : List Str) :
    p ∈ docLeaves m d ↔ DocLeaf d p ∧ (p.length : Int) ≤ m := by
  cases d <;> simp [docLeaves, DocLeaf, mem_leavesV]

theorem finish_ok {s s' : Sampler} {r : GoM (Option KeyMap × Bool)}
    (h : s.finish r = .ok (s', false)) :
    ∃ keys, r = .ok (keys, false) ∧ s' = { s with keys := keys, totalDocs := s.totalDocs + 1 } := by
  rcases r with p | ⟨keys, _ | _⟩ <;> cases h
  exact ⟨keys, rfl, rfl⟩

theorem sample_visited {s s' : Sampler} {d : SampleIn} (h : s.sample d = .ok (s', false)) :
    ∃ keys, Visited (docLeaves s.maxDepth d) [] s.keys keys ∧
      s' = { s with keys := keys, totalDocs := s.totalDocs + 1 } := by
  cases d with
  | empty => cases h
  | rejected => cases h
  | object ms closed =>
    obtain ⟨keys, h1, h2⟩ := finish_ok h
    exact ⟨keys, sampleV_ok _ _ _ _ _ _ h1, h2⟩
  | array items closed =>
    obtain ⟨keys, h1, h2⟩ := finish_ok h
    exact ⟨keys, sampleV_ok _ _ _ _ _ _ h1, h2⟩

theorem sample_ok {s s' : Sampler} {d : SampleIn} {M : KeyMap} (hk : s.keys = some M)
    (h : s.sample d = .ok (s', false)) :
    s' = { s with keys := some (M.incAll ((docLeaves s.maxDepth d).map dotted)),
                  totalDocs := s.totalDocs + 1 } := by
  obtain ⟨keys, hv, rfl⟩ := sample_visited h
  rw [hv.2.2 M hk]
  congr 3
  apply List.map_congr_left
  intro p hp
  have : p ≠ [] := by
    rintro rfl
    exact hv.1 [] hp rfl
  simp only [keyOf, List.nil_append, parts_tail this]

theorem samples_ok {s s' : Sampler} {ds : List SampleIn} (h : Samples s ds s') :
    ∀ {M : KeyMap}, s.keys = some M →
    s' = { s with keys := some (M.incAll (ds.flatMap fun d => (docLeaves s.maxDepth d).map dotted)),
                  totalDocs := s.totalDocs + ds.length } := by
  induction h with
  | nil s =>
    intro M hk
    obtain ⟨m, k, t⟩ := s
    dsimp only at hk; subst hk; rfl
  | @cons s s1 s' d ds h _ ih =>
    intro M hk
    have h1 := sample_ok hk h
    subst h1
    rw [ih rfl]
    simp only [List.flatMap_cons, KeyMap.incAll_append, List.length_cons]
    congr 1
    omega

theorem new_ok : KeyMap.Ok [] := ⟨by simp, by simp⟩

/-- State after sampling without error, from a new sampler. -/
theorem samples_new {maxDepth : Int} {ds : List SampleIn} {s : Sampler}
    (h : Samples (Sampler.new maxDepth) ds s) :
    ∃ M : KeyMap, s = ⟨maxDepth, some M, ds.length⟩ ∧ M.Ok ∧
      ∀ k, M.get k = (ds.flatMap fun d => (docLeaves maxDepth d).map dotted).count k := by
  refine ⟨KeyMap.incAll [] (ds.flatMap fun d => (docLeaves maxDepth d).map dotted), ?_,
    new_ok.incAll _, fun k => ?_⟩
  · rw [samples_ok h rfl]; simp [Sampler.new]
  · rw [KeyMap.get_incAll]; simp [KeyMap.get]

/-! ## C44, C45 -/

/-- **C44.** After sampling any documents without error, the keys are exactly the written paths, of
at most `maxDepth` segments, that lead to a scalar of some sampled document; each is listed once. -/
theorem C44_keys {maxDepth : Int} {ds : List SampleIn} {s : Sampler}
    (h : Samples (Sampler.new maxDepth) ds s) :
    (∀ k, k ∈ s.getKeys ↔ ∃ d ∈ ds, HasKey maxDepth d k) ∧ s.getKeys.Nodup := by
  obtain ⟨M, rfl, hM, hc⟩ := samples_new h
  refine ⟨fun k => ?_, hM.nodup⟩
  show k ∈ M.map (·.1) ↔ _
  rw [hM.mem_keys, hc, List.count_pos_iff, List.mem_flatMap]
  constructor
  · rintro ⟨d, hd, hk⟩
    obtain ⟨p, hp, rfl⟩ := List.mem_map.1 hk
    rw [mem_docLeaves] at hp
    exact ⟨d, hd, p, hp.1, hp.2, rfl⟩
  · rintro ⟨d, hd, p, hp, hl, rfl⟩
    exact ⟨d, hd, List.mem_map.2 ⟨p, (mem_docLeaves _ _ _).2 ⟨hp, hl⟩, rfl⟩⟩

/-- The sampled document of the examples: `{"a": [{"b c": 1}, [2]], "d": null}`. -/
def sampleDoc : SampleIn := .object [("a".toList, .arr [.obj [("b c".toList, .scalar)] true,
  .arr [.scalar] true] true), ("d".toList, .scalar)] true

example : ∃ s, Samples (Sampler.new 5) [sampleDoc, sampleDoc] s ∧
    s.getKeys = ["a.\"b c\"".toList, "d".toList] ∧ s.scanned = 2 := by
  refine ⟨_, .cons rfl (.cons rfl (.nil _)), ?_, rfl⟩
  decide +kernel

/-- **C45, refuted.** With a negative depth every document is accepted and nothing is recorded. -/
theorem C45_unlimited_refuted {maxDepth : Int} (h : maxDepth < 0) :
    (∀ ds s, Samples (Sampler.new maxDepth) ds s → s.getKeys = []) ∧
    ∃ d s, Samples (Sampler.new maxDepth) [d] s ∧ ∃ path, DocLeaf d path := by
  constructor
  · intro ds s hs
    rw [List.eq_nil_iff_forall_not_mem]
    intro k hk
    rw [(C44_keys hs).1] at hk
    obtain ⟨d, _, p, _, hl, _⟩ := hk
    omega
  · refine ⟨.object [("a".toList, .scalar)] true, ⟨maxDepth, some [], 1⟩, .cons ?_ (.nil _),
      ["a".toList], .member (List.mem_singleton.2 rfl) .scalar⟩
    have : (0 : Int) > maxDepth := h
    simp [Sampler.sample, Sampler.new, sampleV, this, Sampler.finish]

/-- **C45, the part that holds.** A depth at least that of the documents is no limit. Missing:
negative depths, see `C45_unlimited_refuted`. -/
theorem C45_unlimited_partial {maxDepth : Int} {ds : List SampleIn} {s : Sampler}
    (h : Samples (Sampler.new maxDepth) ds s)
    (hd : ∀ d ∈ ds, ∀ path, DocLeaf d path → (path.length : Int) ≤ maxDepth) (k : Str) :
    k ∈ s.getKeys ↔ ∃ d ∈ ds, ∃ path, DocLeaf d path ∧ dotted path = k := by
  rw [(C44_keys h).1]
  constructor
  · rintro ⟨d, hm, p, hp, _, he⟩; exact ⟨d, hm, p, hp, he⟩
  · rintro ⟨d, hm, p, hp, he⟩; exact ⟨d, hm, p, hp, hd d hm p hp, he⟩

/-! ## C46 -/

/-- **C46.** A document rejected by the check of its first and last byte leaves the sampler as it
was. -/
theorem C46_rejected_partial (s : Sampler) : s.sample .rejected = .ok (s, true) := rfl

theorem finish_err {s s' : Sampler} {r : GoM (Option KeyMap × Bool)}
    (h : s.finish r = .ok (s', true)) : s' = { s with keys := none } := by
  rcases r with p | ⟨keys, _ | _⟩ <;> cases h
  rfl

/-- **C46, refuted.** Any other error drops all keys, and from then on, even after `Reset`, no
document with a scalar in reach is ever sampled successfully again. -/
theorem C46_error_refuted {s s' : Sampler} {d : SampleIn} (h : s.sample d = .ok (s', true))
    (hd : d ≠ .rejected) :
    s'.getKeys = [] ∧ ∀ d2 k, HasKey s.maxDepth d2 k →
      (∀ s2, s'.sample d2 ≠ .ok (s2, false)) ∧ ∀ s2, s'.reset.sample d2 ≠ .ok (s2, false) := by
  have he : s' = { s with keys := none } := by
    cases d with
    | empty => cases h
    | rejected => exact absurd rfl hd
    | object ms closed => exact finish_err h
    | array items closed => exact finish_err h
  subst he
  refine ⟨rfl, fun d2 k hk => ?_⟩
  obtain ⟨p, hp, hl, _⟩ := hk
  have hm : p ∈ docLeaves s.maxDepth d2 := (mem_docLeaves _ _ _).2 ⟨hp, hl⟩
  constructor
  · intro s2 h2
    obtain ⟨keys, hv, _⟩ := sample_visited h2
    have := (hv.2.1 rfl).1
    rw [this] at hm; cases hm
  · intro s2 h2
    obtain ⟨keys, hv, _⟩ := sample_visited h2
    have := (hv.2.1 rfl).1
    rw [show s.maxDepth = (Sampler.reset { s with keys := none }).maxDepth from rfl, this] at hm
    cases hm

/-- **C46, refuted: witness.** After one document with an unreadable value, the next ordinary one
makes `Sample` panic. -/
theorem C46_panic_refuted : ∃ s, (Sampler.new 5).sample (.object [("a".toList, .unknown)] true) =
    .ok (s, true) ∧ s.sample (.object [("a".toList, .scalar)] true) = .error .nilMap ∧
    s.reset.sample (.object [("a".toList, .scalar)] true) = .error .nilMap :=
  ⟨⟨5, none, 0⟩, rfl, rfl, rfl⟩

/-! ## C47 -/

/-- **C47, refuted.** `Sample` panics on no bytes, and on an array that begins with a scalar. -/
theorem C47_panics_refuted (s : Sampler) : s.sample .empty = .error .outOfRange ∧
    (0 ≤ s.maxDepth → ∀ items closed, s.sample (.array (.scalar :: items) closed) = .error .outOfRange) := by
  refine ⟨rfl, fun h items closed => ?_⟩
  have : ¬ (0 : Int) > s.maxDepth := by omega
  simp [Sampler.sample, sampleV, this, sampleItems, SJson.isArr, record, Sampler.finish]

theorem finish_total {s : Sampler} {M : KeyMap} {e : Bool} :
    ∃ s' e', s.finish (.ok (some M, e)) = .ok (s', e') ∧ (e' = false → s'.keys ≠ none) := by
  cases e
  · exact ⟨_, _, rfl, fun _ => by simp⟩
  · exact ⟨_, _, rfl, fun h => by cases h⟩

/-- **C47, the part that holds.** While the sampler still has its map, objects, and arrays without
scalar elements, never make `Sample` panic, and the map is kept unless an error is returned.
Missing: the cases of `C47_panics_refuted`, and use after an error (C46). -/
theorem C47_panics_partial {s : Sampler} (hk : s.keys ≠ none) {d : SampleIn}
    (hd : match d with
      | .empty => False
      | .array items _ => ∀ v ∈ items, v ≠ .scalar
      | _ => True) :
    ∃ s' e, s.sample d = .ok (s', e) ∧ (e = false → s'.keys ≠ none) := by
  obtain ⟨m, keys, t⟩ := s
  cases keys with
  | none => exact absurd rfl hk
  | some M =>
    cases d with
    | empty => exact absurd hd id
    | rejected => exact ⟨_, _, rfl, fun h => by cases h⟩
    | object ms closed =>
      simp only [Sampler.sample, sampleV]
      split
      · exact finish_total
      · obtain ⟨M', e, h⟩ := sampleMembers_total m ms closed [] 0 M
        rw [h]; exact finish_total
    | array items closed =>
      simp only [Sampler.sample, sampleV]
      split
      · exact finish_total
      · obtain ⟨M', e, h⟩ := sampleItems_total m items closed [] 0 M false (fun v hv _ => .inr (hd v hv))
        rw [h]; exact finish_total

example : ∃ s' e, (Sampler.new 3).sample sampleDoc = .ok (s', e) :=
  let ⟨s', e, h, _⟩ := C47_panics_partial (s := Sampler.new 3) (by simp [Sampler.new]) (d := sampleDoc) trivial
  ⟨s', e, h⟩

/-! ## C48 -/

theorem div_fin {a b : ℚ} (hb : b ≠ 0) : F64.div (.fin a) (.fin b) = toF64 (a / b) := by
  simp [F64.div, hb]

theorem le_fin {a b : ℚ} : F64.le (.fin a) (.fin b) = true ↔ a ≤ b := by
  simp only [F64.le, F64.lt, F64.eq, Bool.or_eq_true, decide_eq_true_eq]
  exact le_iff_lt_or_eq.symm

theorem roundQ_small_nat {n : ℕ} (h : n ≤ 2 ^ 53) : roundQ (n : ℚ) = n := by
  have := roundQ_small_int (n := (n : ℤ)) (by rw [abs_of_nonneg (by positivity)]; exact_mod_cast h)
  exact_mod_cast this

theorem toF64_nat {n : ℕ} (h : n ≤ 2 ^ 53) : toF64 (n : ℚ) = .fin n := by
  rw [toF64_small, roundQ_small_nat h]
  rw [abs_of_nonneg (by positivity)]
  have : (n : ℚ) ≤ 2 ^ 53 := by exact_mod_cast h
  linarith [show (2 : ℚ) ^ 53 ≤ 2 ^ 63 by norm_num]

theorem quotient {c t : ℕ} (hc : c ≤ 2 ^ 53) (ht : t ≤ 2 ^ 53) (ht0 : 0 < t) :
    (toF64 (c : ℚ)).div (toF64 (t : ℚ)) = .fin (roundQ (c / t)) := by
  have h1 : (1 : ℚ) ≤ t := by exact_mod_cast ht0
  rw [toF64_nat hc, toF64_nat ht, div_fin (by positivity), toF64_small]
  rw [abs_of_nonneg (by positivity)]
  have : (c : ℚ) ≤ 2 ^ 53 := by exact_mod_cast hc
  calc (c : ℚ) / t ≤ c := div_le_self (by positivity) h1
    _ ≤ 2 ^ 63 := by linarith [show (2 : ℚ) ^ 53 ≤ 2 ^ 63 by norm_num]

theorem roundQ_abs_le {p : ℤ} (hp : |p| ≤ 2 ^ 63) : |roundQ (p : ℚ)| ≤ 2 ^ 63 := by
  rw [abs_le] at hp ⊢
  have h1 : (-(2 ^ 63) : ℚ) ≤ p := by exact_mod_cast hp.1
  have h2 : (p : ℚ) ≤ 2 ^ 63 := by exact_mod_cast hp.2
  have e : roundQ (2 ^ 63) = 2 ^ 63 := by
    have h := roundQ_two63
    rwa [show ((2 ^ 63 : ℤ) : ℚ) = 2 ^ 63 by norm_num] at h
  constructor
  · have := roundQ_mono h1; rw [roundQ_neg, e] at this; exact this
  · have := roundQ_mono h2; rw [e] at this; exact this

theorem percent {p : ℤ} (hp : |p| ≤ 2 ^ 63) :
    (toF64 (p : ℚ)).div (toF64 100) = .fin (roundQ (roundQ p / 100)) := by
  have h100 : toF64 100 = .fin 100 := by
    have := toF64_nat (n := 100) (by norm_num); exact_mod_cast this
  rw [toF64_int hp, h100, div_fin (by norm_num), toF64_small]
  have h := roundQ_abs_le hp
  rw [abs_div, show |(100 : ℚ)| = 100 by norm_num]
  exact (div_le_self (abs_nonneg _) (by norm_num)).trans h

/-- The floating-point comparison of `KeysAtThreshold` is the exact one, for fewer than 2^46
documents and thresholds up to 100 percent. -/
theorem threshold_exact {c t : ℕ} {p : ℤ} (hc : c ≤ 2 ^ 53) (ht : t < 2 ^ 46) (ht0 : 0 < t)
    (hp : |p| ≤ 2 ^ 63) (hp1 : p ≤ 100) :
    ((toF64 (p : ℚ)).div (toF64 100)).le ((toF64 (c : ℚ)).div (toF64 (t : ℚ))) = true ↔
      (t : ℤ) * p ≤ 100 * c := by
  have htq : (0 : ℚ) < t := by exact_mod_cast ht0
  rw [percent hp, quotient hc (ht.le.trans (by norm_num)) ht0, le_fin]
  rcases le_or_gt p 0 with hp0 | hp0
  · constructor
    · intro _
      have : (t : ℤ) * p ≤ 0 := mul_nonpos_of_nonneg_of_nonpos (by positivity) hp0
      have : (0 : ℤ) ≤ 100 * c := by positivity
      omega
    · intro _
      have h1 : roundQ (p : ℚ) ≤ 0 := by
        have := roundQ_mono (p := (p : ℚ)) (q := 0) (by exact_mod_cast hp0)
        rwa [roundQ_zero] at this
      have h2 : roundQ (roundQ (p : ℚ) / 100) ≤ 0 := by
        have := roundQ_mono (p := roundQ (p : ℚ) / 100) (q := 0) (by linarith)
        rwa [roundQ_zero] at this
      exact h2.trans (roundQ_nonneg (by positivity))
  · rw [roundQ_small_int (n := p) (by rw [abs_of_pos hp0]; omega)]
    have key : (t : ℤ) * p ≤ 100 * c ↔ (p : ℚ) / 100 ≤ c / t := by
      rw [div_le_div_iff₀ (by norm_num) htq]
      constructor
      · intro h
        have : ((t : ℤ) * p : ℚ) ≤ ((100 * c : ℤ) : ℚ) := by exact_mod_cast h
        push_cast at this; linarith
      · intro h
        have : ((t : ℤ) * p : ℚ) ≤ ((100 * c : ℤ) : ℚ) := by push_cast; linarith
        exact_mod_cast this
    rw [key]
    constructor
    · intro h
      by_contra hlt
      rw [not_le] at hlt
      have hpq : (p : ℚ) / 100 ≤ 1 := by
        rw [div_le_one (by norm_num)]; exact_mod_cast hp1
      have e1 := roundQ_unit_error (q := (p : ℚ) / 100) (by positivity) hpq
      have e2 := roundQ_unit_error (q := (c : ℚ) / t) (by positivity) (by linarith)
      rw [abs_le] at e1 e2
      have gap : 1 / 2 ^ 53 < (p : ℚ) / 100 - c / t := by
        have hz : (1 : ℤ) ≤ t * p - 100 * c := by
          have : ¬ ((t : ℤ) * p ≤ 100 * c) := by rw [key, not_le]; exact hlt
          omega
        have hzq : (1 : ℚ) ≤ t * p - 100 * c := by exact_mod_cast hz
        have e : (p : ℚ) / 100 - c / t = (t * p - 100 * c) / (100 * t) := by
          field_simp
        rw [e]
        have ht' : (t : ℚ) < 2 ^ 46 := by exact_mod_cast ht
        calc (1 : ℚ) / 2 ^ 53 < 1 / (100 * t) := by
              apply one_div_lt_one_div_of_lt (by positivity)
              linarith [show (100 : ℚ) * 2 ^ 46 < 2 ^ 53 by norm_num]
          _ ≤ (t * p - 100 * c) / (100 * t) := by
              apply div_le_div_of_nonneg_right hzq (by positivity)
      have : (1 : ℚ) / 2 ^ 53 = 1 / 2 ^ 54 + 1 / 2 ^ 54 := by norm_num
      linarith [e1.1, e1.2, e2.1, e2.2]
    · exact fun h => roundQ_mono h

/-- Thresholds above 100 percent select nothing as long as no key is counted more than once per
document. -/
theorem threshold_over {c t : ℕ} {p : ℤ} (hct : c ≤ t) (ht : t < 2 ^ 46) (ht0 : 0 < t)
    (hp : |p| ≤ 2 ^ 63) (hp1 : 100 < p) :
    ¬ ((toF64 (p : ℚ)).div (toF64 100)).le ((toF64 (c : ℚ)).div (toF64 (t : ℚ))) = true := by
  have htq : (0 : ℚ) < t := by exact_mod_cast ht0
  rw [percent hp, quotient (hct.trans (ht.le.trans (by norm_num))) (ht.le.trans (by norm_num)) ht0, le_fin,
    not_le]
  have h1 : roundQ ((c : ℚ) / t) ≤ 1 := by
    have := roundQ_mono (p := (c : ℚ) / t) (q := ((1 : ℤ) : ℚ))
      (by push_cast; rw [div_le_one htq]; exact_mod_cast hct)
    rw [roundQ_small_int (by norm_num)] at this
    exact_mod_cast this
  have h2 : (101 : ℚ) ≤ roundQ (p : ℚ) := by
    have := roundQ_mono (p := ((101 : ℤ) : ℚ)) (q := (p : ℚ)) (by exact_mod_cast hp1)
    rw [roundQ_small_int (by norm_num)] at this
    exact_mod_cast this
  have h3 : roundQ (101 / 100) ≤ roundQ (roundQ (p : ℚ) / 100) := roundQ_mono (by linarith)
  have h4 : (1 : ℚ) < roundQ (101 / 100) := by decide +kernel
  linarith

/-- Occurrences of a key in a list of documents, as the sampler counts them: once per scalar. -/
def occurrences (maxDepth : Int) (ds : List SampleIn) (k : Str) : Nat :=
  (ds.map fun d => ((docLeaves maxDepth d).map dotted).count k).sum

theorem count_flatMap {α : Type} (ds : List α) (f : α → List Str) (k : Str) :
    (ds.flatMap f).count k = (ds.map fun d => (f d).count k).sum := by
  induction ds with
  | nil => rfl
  | cons d ds ih => simp [List.flatMap_cons, List.count_append, ih]

theorem mem_threshold {maxDepth : Int} {M : KeyMap} {t : Nat} (hM : M.Ok) (p : Int) (k : Str) :
    k ∈ (⟨maxDepth, some M, t⟩ : Sampler).keysAtThreshold p ↔
      0 < M.get k ∧ ((toF64 (p : ℚ)).div (toF64 100)).le
        ((toF64 ((M.get k : Nat) : ℚ)).div (toF64 ((t : Nat) : ℚ))) = true := by
  simp only [Sampler.keysAtThreshold, Sampler.entries, Option.getD_some, List.mem_map,
    List.mem_filter, Prod.exists, exists_and_right, exists_eq_right]
  constructor
  · rintro ⟨n, hn, hle⟩
    obtain ⟨rfl, h0⟩ := (hM.mem_iff _ _).1 hn
    exact ⟨h0, hle⟩
  · rintro ⟨h0, hle⟩
    exact ⟨_, (hM.mem_iff _ _).2 ⟨rfl, h0⟩, hle⟩

/-- **C48.** What the threshold really compares: a key is returned iff it was seen and its number of
scalars, not documents, is at least `p` percent of the number of documents. -/
theorem C48_occurrences {maxDepth : Int} {ds : List SampleIn} {s : Sampler}
    (h : Samples (Sampler.new maxDepth) ds s) {p : Int} (hp : |p| ≤ 2 ^ 63) (hp1 : p ≤ 100)
    (hn : ds.length < 2 ^ 46) {k : Str} (hk : occurrences maxDepth ds k ≤ 2 ^ 53) :
    k ∈ s.keysAtThreshold p ↔ 0 < occurrences maxDepth ds k ∧
      (ds.length : Int) * p ≤ 100 * (occurrences maxDepth ds k : Int) := by
  obtain ⟨M, rfl, hM, hc⟩ := samples_new h
  rw [mem_threshold hM, hc, count_flatMap]
  show 0 < occurrences maxDepth ds k ∧ _ ↔ _
  rcases Nat.eq_zero_or_pos ds.length with h0 | h0
  · have : ds = [] := List.length_eq_zero_iff.1 h0
    subst this
    simp [occurrences]
  · exact and_congr_right fun _ => threshold_exact hk hn h0 hp hp1

/-- **C48, refuted.** One document in three has the key, but its array has three elements with it,
so the key is reported for a threshold of 100 percent. -/
theorem C48_threshold_refuted : ∃ ds s k, Samples (Sampler.new 5) ds s ∧ ds.length = 3 ∧
    k ∈ s.keysAtThreshold 100 ∧ (∃ d ∈ ds, ¬ HasKey 5 d k) := by
  refine ⟨[.object [("a".toList, .arr [.scalar, .scalar, .scalar] true)] true, .object [] true,
    .object [] true], _, "a".toList, .cons rfl (.cons rfl (.cons rfl (.nil _))), rfl, by decide +kernel, ?_⟩
  refine ⟨.object [] true, by simp, ?_⟩
  rintro ⟨p, hp, _⟩
  cases hp with
  | member hm _ => cases hm

theorem segment_dot {k : Str} (h : '.' ∉ k) : '.' ∉ segment k := by
  unfold segment
  split
  · simp [h]
  · exact h

theorem segment_inj {a b : Str} (h : segment a = segment b) : a = b := by
  unfold segment at h
  by_cases ha : ' ' ∈ a <;> by_cases hb : ' ' ∈ b
  · rw [if_pos ha, if_pos hb] at h; simpa using h
  · rw [if_pos ha, if_neg hb] at h
    exact absurd (h ▸ (by simp [ha])) hb
  · rw [if_neg ha, if_pos hb] at h
    exact absurd (h ▸ (by simp [hb])) ha
  · rw [if_neg ha, if_neg hb] at h; exact h

theorem sep_unique {a b x y : Str} (ha : '.' ∉ a) (hb : '.' ∉ b)
    (h : a ++ '.' :: x = b ++ '.' :: y) : a = b ∧ x = y := by
  induction a generalizing b with
  | nil =>
    cases b with
    | nil => exact ⟨rfl, by simpa using h⟩
    | cons c b => simp only [List.nil_append, List.cons_append, List.cons.injEq] at h
                  exact absurd (h.1 ▸ List.mem_cons_self) hb
  | cons c a ih =>
    cases b with
    | nil => simp only [List.nil_append, List.cons_append, List.cons.injEq] at h
             exact absurd (h.1 ▸ List.mem_cons_self) ha
    | cons c' b =>
      simp only [List.cons_append, List.cons.injEq] at h
      obtain ⟨rfl, h2⟩ := ih (fun hm => ha (by simp [hm])) (fun hm => hb (by simp [hm])) h.2
      exact ⟨by rw [h.1], h2⟩

/-- Written paths determine the keys when no key has a dot. -/
theorem dotted_inj {p q : List Str} (hp : ∀ k ∈ p, '.' ∉ k) (hq : ∀ k ∈ q, '.' ∉ k) (hp0 : p ≠ [])
    (hq0 : q ≠ []) (h : dotted p = dotted q) : p = q := by
  have cons2 : ∀ (a b : Str) (r : List Str), dotted (a :: b :: r) = segment a ++ '.' :: dotted (b :: r) := by
    intro a b r
    unfold dotted
    rw [List.map_cons, List.map_cons, List.intercalate_cons_cons]
    simp
  have one : ∀ a : Str, dotted [a] = segment a := by intro a; simp [dotted, List.intercalate]
  induction p generalizing q with
  | nil => exact absurd rfl hp0
  | cons a p ih =>
    cases q with
    | nil => exact absurd rfl hq0
    | cons b q =>
      have ha := segment_dot (hp a (by simp))
      have hb := segment_dot (hq b (by simp))
      cases p with
      | nil =>
        cases q with
        | nil => rw [one, one] at h; rw [segment_inj h]
        | cons b' q =>
          rw [one, cons2] at h
          exact absurd (h ▸ (by simp)) ha
      | cons a' p =>
        cases q with
        | nil =>
          rw [one, cons2] at h
          exact absurd (h ▸ (by simp)) hb
        | cons b' q =>
          rw [cons2, cons2] at h
          obtain ⟨e1, e2⟩ := sep_unique ha hb h
          rw [segment_inj e1, ih (q := b' :: q) (fun k hk => hp k (by simp [hk]))
            (fun k hk => hq k (by simp [hk])) (by simp) (by simp) e2]

theorem simple_leaf_keys {v : SJson} {p : List Str} (h : LeafPath v p) : Simple v →
    ∀ k ∈ p, '.' ∉ k := by
  induction h with
  | scalar => intro _ k hk; cases hk
  | member hm _ ih =>
    intro hs k hk
    cases hs with
    | obj h1 h2 h3 =>
      rcases List.mem_cons.1 hk with rfl | hk
      · exact h2 _ hm
      · exact ih (h3 _ hm) k hk
  | element => intro hs; cases hs

mutual

theorem leavesV_nodup (m : Int) : ∀ (v : SJson) (d : Int), Simple v → (leavesV m v d).Nodup
  | .obj ms closed, d, hs => by
    rw [leavesV]
    cases hs with
    | obj h1 h2 h3 =>
      split
      · exact List.nodup_nil
      · exact leavesM_nodup m ms d h1 h3
  | .scalar, d, _ => by rw [leavesV]; split <;> simp
  | .unknown, d, hs => by cases hs
  | .arr _ _, d, hs => by cases hs

theorem leavesM_nodup (m : Int) : ∀ (ms : List (Str × SJson)) (d : Int), (ms.map (·.1)).Nodup →
    (∀ x ∈ ms, Simple x.2) → (leavesM m ms d).Nodup
  | [], d, _, _ => by rw [leavesM]; exact List.nodup_nil
  | (k, v) :: ms, d, hn, hs => by
    rw [leavesM, List.nodup_append]
    simp only [List.map_cons, List.nodup_cons] at hn
    refine ⟨(leavesV_nodup m v (d + 1) (hs (k, v) (by simp))).map (fun a b h => by simpa using h),
      leavesM_nodup m ms d hn.2 (fun x hx => hs x (by simp [hx])), ?_⟩
    rintro a ha b hb rfl
    obtain ⟨q, _, rfl⟩ := List.mem_map.1 ha
    rw [mem_leavesM] at hb
    obtain ⟨k', v', q', hm, he, _⟩ := hb
    simp only [List.cons.injEq] at he
    exact hn.1 (he.1 ▸ List.mem_map.2 ⟨_, hm, rfl⟩)

end

open Classical in
/-- In a simple document each key is counted at most once, exactly when it is there. -/
theorem simple_count {m : Int} {d : SampleIn} (hs : SimpleDoc d) (k : Str) :
    ((docLeaves m d).map dotted).count k = if HasKey m d k then 1 else 0 := by
  have hleaf : ∀ p ∈ docLeaves m d, p ≠ [] ∧ ∀ k ∈ p, '.' ∉ k := by
    intro p hp
    rw [mem_docLeaves] at hp
    cases d with
    | object ms closed =>
      refine ⟨?_, simple_leaf_keys hp.1 hs⟩
      rintro rfl
      exact nomatch hp.1
    | _ => exact absurd hs id
  have hnd : ((docLeaves m d).map dotted).Nodup := by
    have h1 : (docLeaves m d).Nodup := by
      cases d with
      | object ms closed => exact leavesV_nodup m _ 0 hs
      | _ => exact absurd hs id
    rw [List.nodup_map_iff_inj_on h1]
    intro x hx y hy he
    exact dotted_inj (hleaf x hx).2 (hleaf y hy).2 (hleaf x hx).1 (hleaf y hy).1 he
  have hmem : k ∈ (docLeaves m d).map dotted ↔ HasKey m d k := by
    rw [List.mem_map]
    constructor
    · rintro ⟨p, hp, rfl⟩
      rw [mem_docLeaves] at hp
      exact ⟨p, hp.1, hp.2, rfl⟩
    · rintro ⟨p, hp, hl, rfl⟩
      exact ⟨p, (mem_docLeaves _ _ _).2 ⟨hp, hl⟩, rfl⟩
  split
  · rename_i h
    exact List.count_eq_one_of_mem hnd (hmem.2 h)
  · rename_i h
    exact List.count_eq_zero_of_not_mem (fun hk => h (hmem.1 hk))

open Classical in
/-- **C48, the part that holds.** For documents without arrays, repeated keys and dots in keys, and
fewer than 2^46 of them, a key is returned iff it was seen and at least `p` percent of the documents
have it; floating-point rounding never changes the selection. Missing: documents with arrays, where
the claim is false (`C48_threshold_refuted`). -/
theorem C48_threshold_partial {maxDepth : Int} {ds : List SampleIn} {s : Sampler}
    (h : Samples (Sampler.new maxDepth) ds s) (hs : ∀ d ∈ ds, SimpleDoc d) {p : Int}
    (hp : |p| ≤ 2 ^ 63) (hn : ds.length < 2 ^ 46) (k : Str) :
    k ∈ s.keysAtThreshold p ↔ k ∈ s.getKeys ∧
      (ds.length : Int) * p ≤ 100 * (ds.countP fun d => decide (HasKey maxDepth d k) : Nat) := by
  have hocc : occurrences maxDepth ds k = ds.countP fun d => decide (HasKey maxDepth d k) := by
    unfold occurrences
    clear h hn
    induction ds with
    | nil => rfl
    | cons d ds ih =>
      rw [List.map_cons, List.sum_cons, ih (fun x hx => hs x (by simp [hx])), List.countP_cons,
        simple_count (hs d (by simp))]
      simp only [decide_eq_true_eq]
      omega
  have hle : occurrences maxDepth ds k ≤ ds.length := by rw [hocc]; exact List.countP_le_length
  obtain ⟨M, rfl, hM, hc⟩ := samples_new h
  have hk : k ∈ (⟨maxDepth, some M, ds.length⟩ : Sampler).getKeys ↔ 0 < occurrences maxDepth ds k := by
    show k ∈ M.map (·.1) ↔ _
    rw [hM.mem_keys, hc, count_flatMap]
    rfl
  rw [hk, ← hocc]
  rcases le_or_gt p 100 with h1 | h1
  · exact C48_occurrences h hp h1 hn (hle.trans (hn.le.trans (by norm_num)))
  · rw [mem_threshold hM, hc, count_flatMap]
    show 0 < occurrences maxDepth ds k ∧ _ ↔ _
    rcases Nat.eq_zero_or_pos ds.length with h0 | h0
    · rw [h0] at hle
      constructor
      · rintro ⟨h, _⟩; omega
      · rintro ⟨h, _⟩; omega
    · constructor
      · rintro ⟨_, h⟩
        exact absurd h (threshold_over hle hn h0 hp h1)
      · rintro ⟨_, h⟩
        exfalso
        have a : (0 : Int) < ds.length := by exact_mod_cast h0
        have b : (occurrences maxDepth ds k : Int) ≤ ds.length := by exact_mod_cast hle
        nlinarith

example : SimpleDoc (.object [("a".toList, .obj [("b c".toList, .scalar)] true), ("d".toList, .scalar)] true) := by
  refine .obj (by decide) (by decide) ?_
  intro m hm
  simp only [List.mem_cons, List.not_mem_nil, or_false] at hm
  rcases hm with rfl | rfl
  · refine .obj (by decide) (by decide) ?_
    intro m hm
    simp only [List.mem_cons, List.not_mem_nil, or_false] at hm
    subst hm; exact .scalar
  · exact .scalar

/-! ## C49 -/

/-- Sample several documents; the flags tell which calls returned an error. -/
def Sampler.sampleAll (s : Sampler) : List SampleIn → GoM (Sampler × List Bool)
  | [] => .ok (s, [])
  | d :: ds =>
    match s.sample d with
    | .error p => .error p
    | .ok (s1, e) =>
      match Sampler.sampleAll s1 ds with
      | .error p => .error p
      | .ok (s', es) => .ok (s', e :: es)

theorem sample_total {s s' : Sampler} {d : SampleIn} {e : Bool} (h : s.sample d = .ok (s', e)) :
    s'.totalDocs = s.totalDocs + (if e then 0 else 1) ∧ s'.maxDepth = s.maxDepth := by
  have hf : ∀ r, s.finish r = .ok (s', e) →
      s'.totalDocs = s.totalDocs + (if e then 0 else 1) ∧ s'.maxDepth = s.maxDepth := by
    intro r h
    rcases r with p | ⟨keys, _ | _⟩ <;> cases h <;> exact ⟨rfl, rfl⟩
  cases d with
  | empty => cases h
  | rejected => cases h; exact ⟨rfl, rfl⟩
  | object ms closed => exact hf _ h
  | array items closed => exact hf _ h

/-- **C49.** `Scanned` grows by exactly the number of calls that returned no error. -/
theorem C49_scanned {s s' : Sampler} {ds : List SampleIn} {es : List Bool}
    (h : s.sampleAll ds = .ok (s', es)) :
    s'.scanned = s.scanned + es.count false ∧ es.length = ds.length := by
  induction ds generalizing s es with
  | nil => cases h; exact ⟨rfl, rfl⟩
  | cons d ds ih =>
    rw [Sampler.sampleAll] at h
    rcases h1 : s.sample d with p | ⟨s1, e⟩
    · rw [h1] at h; cases h
    · rw [h1] at h
      dsimp only at h
      rcases h2 : s1.sampleAll ds with p | ⟨s2, es2⟩
      · rw [h2] at h; cases h
      · rw [h2] at h
        cases h
        have ht := (sample_total h1).1
        have hi := ih h2
        simp only [Sampler.scanned] at hi ⊢
        refine ⟨?_, by simp [hi.2]⟩
        rw [hi.1, ht, List.count_cons]
        cases e <;> simp
        omega

/-- **C49.** After `Reset` the count is zero; a sampler that has had no inner error is then equal to
a new one. -/
theorem C49_reset (s : Sampler) : s.reset.scanned = 0 ∧ s.reset.getKeys = [] ∧
    (s.keys ≠ none → s.reset = Sampler.new s.maxDepth) := by
  obtain ⟨m, keys, t⟩ := s
  refine ⟨rfl, ?_, ?_⟩
  · cases keys <;> rfl
  · intro h
    cases keys with
    | none => exact absurd rfl h
    | some M => rfl

/-- **C49.** In particular, after any documents sampled without error. -/
theorem C49_reset_after {maxDepth : Int} {ds : List SampleIn} {s : Sampler}
    (h : Samples (Sampler.new maxDepth) ds s) : s.reset = Sampler.new maxDepth := by
  obtain ⟨M, rfl, _⟩ := samples_new h
  rfl

/-! ## C50 -/

/-- Member names are readable and distinct in every object of the document. -/
inductive Keyed (E : Env) : Json → Prop
  | null : Keyed E .null
  | bool (b) : Keyed E (.bool b)
  | num (r) : Keyed E (.num r)
  | str (r) : Keyed E (.str r)
  | arr {items} : (∀ v ∈ items, Keyed E v) → Keyed E (.arr items)
  | obj {ms} : DistinctKeys E ms → (∀ m ∈ ms, Keyed E m.2) → Keyed E (.obj ms)

variable {E : Env}

theorem mem_ofMembers {ms : List (Str × Json)} {k : Str} {sv : SJson}
    (h : (k, sv) ∈ (SJson.ofMembers E ms).1) :
    ∃ raw v, (raw, v) ∈ ms ∧ E.unescape raw = some k ∧ sv = SJson.ofJson E v := by
  induction ms with
  | nil => rw [SJson.ofMembers] at h; cases h
  | cons p ms ih =>
    obtain ⟨raw, v⟩ := p
    rw [SJson.ofMembers] at h
    cases hu : E.unescape raw with
    | none => rw [hu] at h; cases h
    | some k' =>
      rw [hu] at h
      rcases List.mem_cons.1 h with e | h
      · cases e; exact ⟨raw, v, by simp, hu, rfl⟩
      · obtain ⟨r, w, hm, a, b⟩ := ih h
        exact ⟨r, w, by simp [hm], a, b⟩

theorem mem_ofItems {items : List Json} {sv : SJson} (h : sv ∈ SJson.ofItems E items) :
    ∃ v ∈ items, sv = SJson.ofJson E v := by
  induction items with
  | nil => rw [SJson.ofItems] at h; cases h
  | cons v vs ih =>
    rw [SJson.ofItems] at h
    rcases List.mem_cons.1 h with rfl | h
    · exact ⟨v, by simp, rfl⟩
    · obtain ⟨w, hm, e⟩ := ih h
      exact ⟨w, by simp [hm], e⟩

theorem leaf_resolves {x : SJson} {p : List Str} (h : LeafPath x p) :
    ∀ v, x = SJson.ofJson E v → Keyed E v → p ≠ [] →
      (∀ ms, v = .obj ms → ∃ w, Resolves E v p w) ∧
      (∀ items, v = .arr items → ∃ o ∈ items, ∃ w, Resolves E o p w) := by
  induction h with
  | scalar => intro v _ _ hp; exact absurd rfl hp
  | @member sms closed k sv path hm hl ih =>
    intro v he hk _
    cases v with
    | obj ms =>
      rw [SJson.ofJson] at he
      cases he
      cases hk with
      | obj hd hall =>
      refine ⟨fun _ _ => ?_, fun _ h => by cases h⟩
      obtain ⟨raw, w, hmem, hu, rfl⟩ := mem_ofMembers hm
      have hf : FirstMember E ms k w := (firstMember_distinct hd k w).2 ⟨raw, hmem, hu⟩
      cases path with
      | nil => exact ⟨w, .last hf⟩
      | cons k' path =>
        have hkw := hall _ hmem
        obtain ⟨i1, i2⟩ := ih w rfl hkw (by simp)
        cases w with
        | obj ms' =>
          obtain ⟨u, hu⟩ := i1 ms' rfl
          exact ⟨u, .inObject hf hu⟩
        | arr items =>
          obtain ⟨o, ho, u, hu⟩ := i2 items rfl
          exact ⟨u, .inArray hf ho hu⟩
        | _ => rw [SJson.ofJson] at hl; cases hl
    | _ => rw [SJson.ofJson] at he; cases he
  | @element sitems closed sv path hm ha hl ih =>
    intro v he hk hp
    cases v with
    | arr items =>
      rw [SJson.ofJson] at he
      cases he
      cases hk with
      | arr hall =>
      refine ⟨?_, ?_⟩
      · intro ms h; cases h
      intro its h
      cases h
      obtain ⟨o, ho, rfl⟩ := mem_ofItems hm
      refine ⟨o, ho, ?_⟩
      obtain ⟨i1, _⟩ := ih o rfl (hall o ho) hp
      cases o with
      | obj ms' => exact i1 ms' rfl
      | arr items' => rw [SJson.ofJson] at ha; cases ha
      | _ =>
        rw [SJson.ofJson] at hl
        cases hl
        exact absurd rfl hp
    | _ => rw [SJson.ofJson] at he; cases he

/-- **C50.** Every key the sampler reports from an object document with distinct member names is the
written form of a path for which the query `path:exists` matches that document. -/
theorem C50_queryable {ms : List (Str × Json)} (hk : Keyed E (.obj ms)) {maxDepth : Int}
    {s : Sampler} (h : Samples (Sampler.new maxDepth)
      [.object (SJson.ofMembers E ms).1 (SJson.ofMembers E ms).2] s) {key : Str} (hm : key ∈ s.getKeys) :
    ∃ path, dotted path = key ∧ (∃ v, Resolves E (.obj ms) path v) ∧
      ∀ pos m, Ready E (.expr .EXS path [] pos) m → Accepts E m (.obj ms) := by
  rw [(C44_keys h).1] at hm
  obtain ⟨d, hd, p, hp, _, rfl⟩ := hm
  rw [List.mem_singleton] at hd
  subst hd
  have hne : p ≠ [] := by rintro rfl; exact nomatch hp
  have hp' : LeafPath (SJson.ofJson E (.obj ms)) p := by rw [SJson.ofJson]; exact hp
  have hr := (leaf_resolves hp' (.obj ms) rfl hk hne).1 ms rfl
  refine ⟨p, rfl, hr, fun pos m hR => ?_⟩
  cases p with
  | nil => exact absurd rfl hne
  | cons k rest => exact (C24_exists hR ⟨k, rest, rfl, by simp⟩).2 hr

example : Keyed testEnv (.obj [("a".toList, .arr [.obj [("b".toList, .null)]]), ("c".toList, .bool true)]) := by
  refine .obj ⟨["a".toList, "c".toList], by decide +kernel, by decide⟩ ?_
  intro m hm
  simp only [List.mem_cons, List.not_mem_nil, or_false] at hm
  rcases hm with rfl | rfl
  · refine .arr ?_
    intro v hv
    rw [List.mem_singleton] at hv
    subst hv
    refine .obj ⟨["b".toList], by decide +kernel, by decide⟩ ?_
    intro m hm
    rw [List.mem_singleton] at hm
    subst hm; exact .null
  · exact .bool _

end Aql
