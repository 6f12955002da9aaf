import Verif.Proofs.SamplerRecover
import Verif.Spec.Seen
/-!
Property C109: samplers that are used on after a panic of `Sample` (sampler.go:40-122).
-/

namespace Aql

open Spec

/-- **C109.** The call returns or panics as described for C44 to C50; only the state after a panic is new. -/
theorem C109_same_calls (s : Sampler) (d : SampleIn) :
    (∀ s' e, s.sample d = .ok (s', e) ↔ s.run d = (s', .returns e)) ∧
    (∀ p, s.sample d = .error p ↔ ∃ s', s.run d = (s', .panics p)) := by
  rw [run_ended]
  rcases s.run d with ⟨s1, e1 | p1⟩ <;> simp [ended]

/-- **C109.** A sampler that has its map is left by a panic as if only the part of the document before the first of its
scalars had been sampled, but that part is not counted as a document. It never reports anything else. -/
theorem C109_recovered {s s' : Sampler} (hk : s.keys ≠ none) {d : SampleIn} {p : GoPanic}
    (h : s.run d = (s', .panics p)) :
    p = .outOfRange ∧ ∃ d', SeenPart d d' ∧
      ((d' = .rejected ∧ s' = s) ∨ ∃ s1, s.sample d' = .ok (s1, false) ∧ s'.getKeys = s1.getKeys ∧ s'.entries = s1.entries ∧
        s'.scanned = s.scanned ∧ s'.maxDepth = s.maxDepth ∧ s'.keys ≠ none) := by
  obtain ⟨m, keys, t⟩ := s
  cases keys with
  | none => exact absurd rfl hk
  | some M =>
    cases d with
    | empty =>
      cases h
      exact ⟨rfl, _, .empty, .inl ⟨rfl, rfl⟩⟩
    | rejected => cases h
    | object ms closed =>
      simp only [Sampler.run, runV] at h
      split at h
      · cases h
      · obtain ⟨M', e, hr⟩ := runMembers_returns (m := m) (ms := ms) (closed := closed) (path := []) (d := 0) (M := M)
        rw [hr] at h
        cases e <;> cases h
    | array items closed =>
      simp only [Sampler.run, runV] at h
      split at h
      · cases h
      rename_i hm
      rcases hr : runItems m items closed [] 0 (some M) false with ⟨keys', e | p'⟩
      · rw [hr] at h
        cases e <;> cases h
      · rw [hr] at h
        cases h
        obtain ⟨hp, before, after, rfl, h1, h2⟩ := runItems_panics (by omega) items M _ hr
        refine ⟨hp, _, .elements h1, .inr ⟨⟨m, keys', t + 1⟩, ?_, rfl, rfl, rfl, rfl, ?_⟩⟩
        · rw [run_ended]
          simp [Sampler.run, runV, if_neg hm, h2, Sampler.close, ended]
        · rintro (rfl : keys' = none)
          have h3 := runItems_ended m before true [] 0 (some M) false
          rw [h2] at h3
          have := (sampleItems_ok m before true [] 0 _ _ _ (h3.trans rfl)).2.2 M rfl
          cases this

/-- Documents given to a sampler one after the other, recovering from panics, no call returning an error; `n` calls
panicked. -/
inductive Survives : Sampler → List SampleIn → Nat → Sampler → Prop
  | nil (s) : Survives s [] 0 s
  | ok {s s1 s' d ds n} : s.run d = (s1, .returns false) → Survives s1 ds n s' → Survives s (d :: ds) n s'
  | recovered {s s1 s' d ds n p} : s.run d = (s1, .panics p) → Survives s1 ds n s' → Survives s (d :: ds) (n + 1) s'

theorem survives_samples {s s' : Sampler} {ds : List SampleIn} {n : Nat} (h : Survives s ds n s') :
    ∀ {M : KeyMap}, s.keys = some M → ∃ ds' : List SampleIn, List.Forall₂ (fun d0 d => d = d0 ∨ SeenPart d0 d) ds ds' ∧
      s'.keys = some (M.incAll (ds'.flatMap fun d => (docLeaves s.maxDepth d).map dotted)) ∧
      s'.maxDepth = s.maxDepth ∧ s'.totalDocs + n = s.totalDocs + ds.length := by
  induction h with
  | nil s => intro M hk; exact ⟨[], .nil, hk, rfl, rfl⟩
  | @ok s s1 s' d ds n h _ ih =>
    intro M hk
    have hs : s.sample d = .ok (s1, false) := by rw [run_ended, h]; rfl
    have h1 := sample_ok hk hs
    subst h1
    obtain ⟨ds', a1, a3, a4, a5⟩ := ih rfl
    refine ⟨d :: ds', .cons (.inl rfl) a1, ?_, a4, ?_⟩
    · rw [a3]
      simp [List.flatMap_cons, KeyMap.incAll_append]
    · simp only [List.length_cons] at a5 ⊢
      omega
  | @recovered s s1 s' d ds n p h _ ih =>
    intro M hk
    obtain ⟨-, d', hseen, ⟨rfl, rfl⟩ | ⟨s2, h2, -, h3, h4, h5, h6⟩⟩ := C109_recovered (by rw [hk]; simp) h
    · obtain ⟨ds', a1, a3, a4, a5⟩ := ih hk
      refine ⟨.rejected :: ds', .cons (.inr hseen) a1, ?_, a4, ?_⟩
      · rw [a3]
        simp [docLeaves]
      · simp only [List.length_cons] at a5 ⊢
        omega
    · have h7 := sample_ok hk h2
      subst h7
      obtain ⟨m1, k1, t1⟩ := s1
      simp only [Sampler.scanned] at h4 h5 h6
      subst h4 h5
      cases k1 with
      | none => exact absurd rfl h6
      | some M1 =>
        simp only [Sampler.entries, Option.getD_some] at h3
        subst h3
        obtain ⟨ds', a1, a3, a4, a5⟩ := ih rfl
        refine ⟨d' :: ds', .cons (.inr hseen) a1, ?_, a4, ?_⟩
        · rw [a3]
          simp [List.flatMap_cons, KeyMap.incAll_append]
        · simp only [List.length_cons] at a5 ⊢
          omega

/-- **C109.** After any number of calls of which some panicked and none returned an error, the keys are those of the
documents that did not make it panic and of the seen parts of those that did, and `Scanned` counts only the former. -/
theorem C109_history {m : Int} {s : Sampler} {ds : List SampleIn} {n : Nat} (h : Survives (Sampler.new m) ds n s) :
    (∃ ds', List.Forall₂ (fun d0 d => d = d0 ∨ SeenPart d0 d) ds ds' ∧
      (∀ k, k ∈ s.getKeys ↔ ∃ d ∈ ds', HasKey m d k) ∧ s.getKeys.Nodup) ∧ s.scanned + n = ds.length := by
  obtain ⟨ds', h1, h2, -, h4⟩ := survives_samples h (M := []) rfl
  refine ⟨⟨ds', h1, ?_⟩, by simpa [Sampler.scanned, Sampler.new] using h4⟩
  have hM := new_ok.incAll (ds'.flatMap fun d => (docLeaves m d).map dotted)
  have hs : s.getKeys = (KeyMap.incAll [] (ds'.flatMap fun d => (docLeaves m d).map dotted)).map (·.1) := by
    simp only [Sampler.getKeys, Sampler.entries, h2, Option.getD_some]
    rfl
  rw [hs]
  refine ⟨fun k => ?_, hM.nodup⟩
  rw [hM.mem_keys, KeyMap.get_incAll]
  simp only [KeyMap.get, Nat.zero_add, List.count_pos_iff, List.mem_flatMap, List.mem_map, mem_docLeaves, HasKey]
  constructor
  · rintro ⟨d, hd, p, ⟨h1, h2⟩, h3⟩
    exact ⟨d, hd, p, h1, h2, h3⟩
  · rintro ⟨d, hd, p, h1, h2, h3⟩
    exact ⟨d, hd, p, ⟨h1, h2⟩, h3⟩

/-- **C109, refuted.** The counts do not belong together any more: after recovering from `[{"a":1},1]`, a new sampler has
scanned no document and reports the key at every threshold; after one more document it says that the key is in 200 percent
of them. -/
theorem C109_counts_refuted :
    ∃ s, (Sampler.new 5).run (.array [.obj [("a".toList, .scalar)] true, .scalar] true) = (s, .panics .outOfRange) ∧
      s.scanned = 0 ∧ s.getKeys = ["a".toList] ∧ (∀ p : Int, |p| ≤ 2 ^ 63 → s.keysAtThreshold p = ["a".toList]) ∧
      ∃ s', s.run (.object [("a".toList, .scalar)] true) = (s', .returns false) ∧ s'.scanned = 1 ∧
        s'.keysAtThreshold 200 = ["a".toList] := by
  refine ⟨⟨5, some [("a".toList, 1)], 0⟩, rfl, rfl, rfl, fun p hp => ?_, ⟨5, some [("a".toList, 2)], 1⟩, rfl, rfl, ?_⟩
  · have h1 : (toF64 ((1 : ℕ) : ℚ)).div (toF64 ((0 : ℕ) : ℚ)) = .inf false := by
      rw [toF64_nat (by norm_num), toF64_nat (by norm_num)]
      simp [F64.div]
    simp only [Sampler.keysAtThreshold, Sampler.entries, Option.getD_some, List.filter_cons, List.filter_nil, h1]
    rw [percent hp]
    simp [F64.le, F64.lt]
  · decide +kernel

-- two panics, one of them with something seen, around a document
example : ∃ s, Survives (Sampler.new 5) [.empty, .object [("b".toList, .scalar)] true,
    .array [.obj [("a".toList, .scalar)] true, .scalar] true] 2 s ∧ s.getKeys = ["b".toList, "a".toList] ∧ s.scanned = 1 :=
  ⟨⟨5, some [("b".toList, 1), ("a".toList, 1)], 1⟩, .recovered rfl (.ok rfl (.recovered rfl (.nil _))), rfl, rfl⟩

/-! ### all histories -/

/-- What a caller does: `Sample` with a document, ending in some way, or `Reset`. -/
inductive Use
  | sample (d : SampleIn) (f : Fate)
  | reset

/-- Calls one after the other, recovering from panics and going on after errors. -/
inductive Life : Sampler → List Use → Sampler → Prop
  | nil (s) : Life s [] s
  | sample {s s1 s' d f us} : s.run d = (s1, f) → Life s1 us s' → Life s (.sample d f :: us) s'
  | reset {s s' us} : Life s.reset us s' → Life s (.reset :: us) s'

/-- What was done after the last `Reset`; `acc` comes first. -/
def lately : List Use → List Use → List Use
  | [], acc => acc
  | .reset :: us, _ => lately us []
  | u :: us, acc => lately us (acc ++ [u])

/-- A call contributes a key: a document that was sampled to the end, or the part seen before a panic. -/
def Gives (m : Int) (u : Use) (k : Str) : Prop :=
  ∃ d f, u = .sample d f ∧ ((f = .returns false ∧ HasKey m d k) ∨ (∃ p d', f = .panics p ∧ SeenPart d d' ∧ HasKey m d' k))

/-- An error of a document that was not rejected at once. -/
def Damages (u : Use) : Prop := ∃ d, u = .sample d (.returns true) ∧ d ≠ .rejected

/-- The call returned without an error. -/
def Use.counts : Use → Bool
  | .sample _ (.returns false) => true
  | _ => false

mutual

theorem runV_none (m : Int) : ∀ (v : SJson) (path : Str) (d : Int), (runV m v path d none).1 = none
  | .obj ms closed, path, d => by
    rw [runV]
    split
    · rfl
    · exact runMembers_none m ms closed path d
  | .arr items closed, path, d => by
    rw [runV]
    split
    · rfl
    · exact runItems_none m items closed path d false
  | .unknown, _, _ => rfl
  | .scalar, path, d => by
    rw [runV]
    split
    · rfl
    · cases path <;> rfl

theorem runMembers_none (m : Int) : ∀ (ms : List (Str × SJson)) (closed : Bool) (path : Str) (d : Int),
    (runMembers m ms closed path d none).1 = none
  | [], _, _, _ => rfl
  | (k, v) :: ms, closed, path, d => by
    rw [runMembers]
    have h := runV_none m v (path ++ keyPart k) (d + 1)
    rcases hv : runV m v (path ++ keyPart k) (d + 1) none with ⟨keys, (_ | _) | p⟩
    · rw [hv] at h
      cases h
      exact runMembers_none m ms closed path d
    · rw [hv] at h; exact h
    · rw [hv] at h; exact h

theorem runItems_none (m : Int) : ∀ (vs : List SJson) (closed : Bool) (path : Str) (d : Int) (aerr : Bool),
    (runItems m vs closed path d none aerr).1 = none
  | [], _, _, _, _ => rfl
  | v :: vs, closed, path, d, aerr => by
    rw [runItems]
    split
    · exact runItems_none m vs closed path d aerr
    · split
      · exact runItems_none m vs closed path d aerr
      · have h := runV_none m v path d
        rcases hv : runV m v path d none with ⟨keys, e | p⟩
        · rw [hv] at h
          cases h
          exact runItems_none m vs closed path d e
        · rw [hv] at h; exact h

end

theorem close_err {s s' : Sampler} {r : Option KeyMap × Fate} (h : s.close r = (s', .returns true)) :
    s' = { s with keys := none } := by
  rcases r with ⟨keys, (_ | _) | p⟩ <;> cases h
  rfl

theorem seenPart_unique {d d1 d2 : SampleIn} (h1 : SeenPart d d1) (h2 : SeenPart d d2) : d1 = d2 := by
  cases h1 with
  | empty => cases h2; rfl
  | @elements before after closed hb =>
    generalize he : before ++ SJson.scalar :: after = items at h2
    cases h2 with
    | @elements before' after' _ hb' =>
      have : before = before' := by
        induction before generalizing before' with
        | nil =>
          cases before' with
          | nil => rfl
          | cons x xs => simp at he; exact absurd he.1.symm (hb' x (by simp))
        | cons y ys ih =>
          cases before' with
          | nil => simp at he; exact absurd he.1 (hb y (by simp))
          | cons x xs =>
            simp only [List.cons_append, List.cons.injEq] at he
            rw [he.1, ih (fun v hv => hb v (by simp [hv])) (fun v hv => hb' v (by simp [hv])) he.2]
      rw [this]

theorem run_none {s : Sampler} (hk : s.keys = none) (d : SampleIn) : (s.run d).1.keys = none ∧
    (s.run d).1.maxDepth = s.maxDepth ∧
    (s.run d).1.totalDocs = s.totalDocs + [Use.sample d (s.run d).2].countP (·.counts) := by
  have hc : ∀ r : Option KeyMap × Fate, r.1 = none → (s.close r).1.keys = none ∧ (s.close r).1.maxDepth = s.maxDepth ∧
      (s.close r).1.totalDocs = s.totalDocs + [Use.sample d (s.close r).2].countP (·.counts) := by
    rintro ⟨keys, (_ | _) | p⟩ h <;> simp_all [Sampler.close, Use.counts]
  cases d with
  | empty => exact ⟨hk, rfl, rfl⟩
  | rejected => exact ⟨hk, rfl, rfl⟩
  | object ms closed => exact hc _ (by rw [hk]; exact runV_none _ _ _ _)
  | array items closed => exact hc _ (by rw [hk]; exact runV_none _ _ _ _)

theorem mem_keys_incAll {M : KeyMap} (h : M.Ok) (m : Int) (d : SampleIn) (k : Str) :
    k ∈ (M.incAll ((docLeaves m d).map dotted)).map (·.1) ↔ k ∈ M.map (·.1) ∨ HasKey m d k := by
  rw [(h.incAll _).mem_keys, h.mem_keys, KeyMap.get_incAll]
  have : 0 < ((docLeaves m d).map dotted).count k ↔ HasKey m d k := by
    simp only [List.count_pos_iff, List.mem_map, mem_docLeaves, HasKey]
    constructor
    · rintro ⟨p, ⟨h1, h2⟩, h3⟩; exact ⟨p, h1, h2, h3⟩
    · rintro ⟨p, h1, h2, h3⟩; exact ⟨p, ⟨h1, h2⟩, h3⟩
  rw [← this]
  omega

/-- What is known of a sampler after the calls `acc` since the last `Reset`. -/
def Known (m : Int) (acc : List Use) (s : Sampler) : Prop :=
  s.maxDepth = m ∧ s.totalDocs = acc.countP (·.counts) ∧
    ∀ M, s.keys = some M → M.Ok ∧ ∀ k, k ∈ M.map (·.1) ↔ ∃ u ∈ acc, Gives m u k

theorem known_step {m : Int} {acc : List Use} {s s' : Sampler} {d : SampleIn} {f : Fate} (h : Known m acc s)
    (hr : s.run d = (s', f)) : Known m (acc ++ [.sample d f]) s' ∧
      (s'.keys = none ↔ s.keys = none ∨ Damages (.sample d f)) := by
  obtain ⟨hm, ht, hM⟩ := h
  have hnone : s.keys = none → s'.keys = none ∧ s'.maxDepth = s.maxDepth ∧
      s'.totalDocs = s.totalDocs + [Use.sample d f].countP (·.counts) := by
    intro hk
    have := run_none hk d
    rw [hr] at this
    exact this
  cases hk : s.keys with
  | none =>
    obtain ⟨h1, h2, h3⟩ := hnone hk
    refine ⟨⟨h2.trans hm, by rw [h3, ht, List.countP_append], fun M hM' => ?_⟩, by simp [h1]⟩
    rw [h1] at hM'
    cases hM'
  | some M =>
    obtain ⟨hok, hkeys⟩ := hM M hk
    rcases f with (_ | _) | p
    · have hs : s.sample d = .ok (s', false) := by rw [run_ended, hr]; rfl
      have h1 := sample_ok hk hs
      subst h1
      refine ⟨⟨hm, by simp [ht, Use.counts], fun M' hM' => ?_⟩, ?_⟩
      · cases hM'
        refine ⟨hok.incAll _, fun k => ?_⟩
        rw [mem_keys_incAll hok, hkeys, hm]
        simp [Gives, or_and_right, exists_or]
      · simp [Damages]
    · by_cases hd : d = .rejected
      · subst hd
        cases hr
        refine ⟨⟨hm, by simp [ht, Use.counts], fun M' hM' => ?_⟩, by simp [hk, Damages]⟩
        rw [hk] at hM'
        cases hM'
        refine ⟨hok, fun k => ?_⟩
        rw [hkeys]
        simp [Gives]
      · have hs' : s' = { s with keys := none } := by
          cases d with
          | empty => cases hr
          | rejected => exact absurd rfl hd
          | object ms closed => exact close_err hr
          | array items closed => exact close_err hr
        subst hs'
        exact ⟨⟨hm, by simp [ht, Use.counts], fun M' hM' => by cases hM'⟩, by simp [Damages, hd]⟩
    · have hgive : ∀ {d'}, SeenPart d d' → ∀ k, Gives m (.sample d (.panics p)) k ↔ HasKey m d' k := by
        intro d' hd' k
        constructor
        · rintro ⟨_, _, h0, h1⟩
          cases h0
          rcases h1 with ⟨h1, _⟩ | ⟨_, d'', h1, h2, h3⟩
          · cases h1
          · rwa [seenPart_unique hd' h2]
        · exact fun h => ⟨_, _, rfl, .inr ⟨_, _, rfl, hd', h⟩⟩
      obtain ⟨-, d', hseen, ⟨rfl, rfl⟩ | ⟨s2, h2, -, h3, h4, h5, h6⟩⟩ := C109_recovered (by rw [hk]; simp) hr
      · refine ⟨⟨hm, by simp [ht, Use.counts], fun M' hM' => ?_⟩, by simp [hk, Damages]⟩
        rw [hk] at hM'
        cases hM'
        refine ⟨hok, fun k => ?_⟩
        have : ¬ HasKey m .rejected k := by
          rintro ⟨q, h1, h2, -⟩
          have := (mem_docLeaves m .rejected q).2 ⟨h1, h2⟩
          simp [docLeaves] at this
        rw [hkeys]
        simp [or_and_right, exists_or, hgive hseen k, this]
      · have h7 := sample_ok hk h2
        subst h7
        refine ⟨⟨h5.trans hm, by simp only [Sampler.scanned] at h4; simp [h4, ht, Use.counts], fun M' hM' => ?_⟩,
          by simp [Damages, h6]⟩
        simp only [Sampler.entries, hM', Option.getD_some] at h3
        subst h3
        refine ⟨hok.incAll _, fun k => ?_⟩
        rw [mem_keys_incAll hok, hkeys, hm]
        simp [or_and_right, exists_or, hgive hseen k]

theorem life_known {m : Int} {s s' : Sampler} {us : List Use} (h : Life s us s') : ∀ {acc : List Use}, Known m acc s →
    Known m (lately us acc) s' ∧ (s'.keys = none ↔ s.keys = none ∨ ∃ u ∈ us, Damages u) := by
  induction h with
  | nil s => intro acc h; exact ⟨h, by simp⟩
  | @sample s s1 s' d f us hr _ ih =>
    intro acc h
    obtain ⟨h1, h2⟩ := known_step h hr
    obtain ⟨h3, h4⟩ := ih h1
    refine ⟨h3, ?_⟩
    rw [h4, h2]
    simp [or_assoc]
  | @reset s s' us _ ih =>
    intro acc h
    have h1 : Known m [] s.reset := by
      refine ⟨h.1, rfl, fun M hM => ?_⟩
      cases hks : s.keys with
      | none => simp [Sampler.reset, hks] at hM
      | some M0 => simp [Sampler.reset, hks] at hM; subst hM; exact ⟨new_ok, by simp⟩
    obtain ⟨h3, h4⟩ := ih h1
    refine ⟨h3, ?_⟩
    rw [h4]
    have : s.reset.keys = none ↔ s.keys = none := by cases hks : s.keys <;> simp [Sampler.reset, hks]
    rw [this]
    simp [Damages]

/-- **C109, exactly.** After any calls of `Sample` and `Reset`, whether they returned, returned an error or panicked: the
count is the number of calls since the last `Reset` that returned no error. If no document ever led to an error (other
than being rejected at once), the keys are those of the documents sampled to the end and of the parts seen before panics,
since the last `Reset`; otherwise there are none. -/
theorem C109_life_exact {m : Int} {us : List Use} {s : Sampler} (h : Life (Sampler.new m) us s) :
    s.scanned = (lately us []).countP (·.counts) ∧
    ((∃ u ∈ us, Damages u) → s.getKeys = []) ∧
    ((¬ ∃ u ∈ us, Damages u) → s.getKeys.Nodup ∧ ∀ k, k ∈ s.getKeys ↔ ∃ u ∈ lately us [], Gives m u k) := by
  obtain ⟨⟨_, h1, h2⟩, h3⟩ := life_known (m := m) (acc := []) h ⟨rfl, rfl, fun M hM => by
    cases hM
    exact ⟨new_ok, by simp⟩⟩
  simp only [Sampler.new, reduceCtorEq, false_or] at h3
  refine ⟨h1, fun hd => ?_, fun hd => ?_⟩
  · simp [Sampler.getKeys, Sampler.entries, h3.2 hd]
  · cases hk : s.keys with
    | none => exact absurd (h3.1 hk) hd
    | some M =>
      obtain ⟨hok, hkeys⟩ := h2 M hk
      have : s.getKeys = M.map (·.1) := by simp [Sampler.getKeys, Sampler.entries, hk]
      rw [this]
      exact ⟨hok.nodup, hkeys⟩

-- a panic with something seen, a reset, a rejected text and a document
example : ∃ s, Life (Sampler.new 5) [.sample (.array [.obj [("a".toList, .scalar)] true, .scalar] true) (.panics .outOfRange),
    .reset, .sample .rejected (.returns true), .sample (.object [("b".toList, .scalar)] true) (.returns false)] s ∧
    s.getKeys = ["b".toList] ∧ s.scanned = 1 :=
  ⟨⟨5, some [("b".toList, 1)], 1⟩, .sample rfl (.reset (.sample rfl (.sample rfl (.nil _)))), rfl, rfl⟩

-- an error, and what is left afterwards
example : ∃ s, Life (Sampler.new 5) [.sample (.object [("a".toList, .scalar)] true) (.returns false),
    .sample (.object [("b".toList, .scalar)] false) (.returns true), .sample (.object [("b".toList, .scalar)] true) (.panics .nilMap),
    .sample (.object [] true) (.returns false)] s ∧ s.getKeys = [] ∧ s.scanned = 2 :=
  ⟨⟨5, none, 2⟩, .sample rfl (.sample rfl (.sample rfl (.sample rfl (.nil _)))), rfl, rfl⟩

end Aql
