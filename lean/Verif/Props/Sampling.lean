import Verif.Props.Sharp
/-!
C46 exactly: when a call of `Sample` succeeds, and what a sampler knows after any sequence of calls of
`Sample` and `Reset`.
-/

namespace Aql

open Spec

mutual

theorem sampleV_intact (m : Int) : ∀ (v : SJson) (path : Str) (d : Int) (keys k : Option KeyMap) (e : Bool),
    sampleV m v path d keys = .ok (k, e) → (e = false ↔ Intact m d v)
  | .obj ms closed, path, d, keys, k, e, h => by
    rw [sampleV] at h
    split at h
    · rename_i hd; cases h; simp [Intact.deep (v := .obj ms closed) hd]
    · rename_i hd
      rw [sound_obj hd]
      exact sampleMembers_intact m ms closed path d keys k e h
  | .arr items closed, path, d, keys, k, e, h => by
    rw [sampleV] at h
    split at h
    · rename_i hd; cases h; simp [Intact.deep (v := .arr items closed) hd]
    · rename_i hd
      rw [sound_arr hd, sampleItems_intact m items closed path d keys false k e h]
      simp
  | .unknown, path, d, keys, k, e, h => by
    rw [sampleV] at h
    cases h
    constructor
    · intro h
      exact .deep (by simpa using h)
    · intro h
      cases h with
      | deep h => simpa using h
  | .scalar, path, d, keys, k, e, h => by
    rw [sampleV] at h
    split at h
    · cases h; simp [Intact.scalar]
    · rcases hr : record path keys with p | k'
      · rw [hr] at h; cases h
      · rw [hr] at h; cases h; simp [Intact.scalar]

theorem sampleMembers_intact (m : Int) : ∀ (ms : List (Str × SJson)) (closed : Bool) (path : Str)
    (d : Int) (keys k : Option KeyMap) (e : Bool), sampleMembers m ms closed path d keys = .ok (k, e) →
      (e = false ↔ closed = true ∧ ∀ kv ∈ ms, Intact m (d + 1) kv.2)
  | [], closed, path, d, keys, k, e, h => by rw [sampleMembers] at h; cases h; simp
  | (n, v) :: ms, closed, path, d, keys, k, e, h => by
    rw [sampleMembers] at h
    rcases hv : sampleV m v (path ++ keyPart n) (d + 1) keys with p | ⟨k1, e1⟩
    · rw [hv] at h; cases h
    · have hs := sampleV_intact m v _ _ _ _ _ hv
      rw [hv] at h
      cases e1 with
      | true =>
        cases h
        simp only [Bool.true_eq_false, false_iff] at hs ⊢
        rintro ⟨-, h⟩
        exact hs (h (n, v) (by simp))
      | false =>
        dsimp only at h
        rw [sampleMembers_intact m ms closed path d k1 k e h]
        simp [hs.1 rfl]

theorem sampleItems_intact (m : Int) : ∀ (vs : List SJson) (closed : Bool) (path : Str)
    (d : Int) (keys : Option KeyMap) (aerr : Bool) (k : Option KeyMap) (e : Bool),
    sampleItems m vs closed path d keys aerr = .ok (k, e) →
      (e = false ↔ aerr = false ∧ closed = true ∧ ∀ v ∈ vs, v.isArr = false → Intact m d v)
  | [], closed, path, d, keys, aerr, k, e, h => by
    rw [sampleItems] at h
    cases h
    cases closed <;> cases aerr <;> simp
  | v :: vs, closed, path, d, keys, aerr, k, e, h => by
    rw [sampleItems] at h
    split at h
    · rename_i ha
      rw [sampleItems_intact m vs closed path d keys aerr k e h]
      simp [ha]
    · rename_i hae
      split at h
      · rename_i ha
        rw [sampleItems_intact m vs closed path d keys aerr k e h]
        simp [ha]
      · rename_i ha
        rcases hv : sampleV m v path d keys with p | ⟨k1, e1⟩
        · rw [hv] at h; cases h
        · have hs := sampleV_intact m v _ _ _ _ _ hv
          rw [hv] at h
          dsimp only at h
          rw [sampleItems_intact m vs closed path d k1 e1 k e h, hs]
          have hae' : aerr = false := by simpa using hae
          have ha' : v.isArr = false := by simpa using ha
          simp only [hae', true_and, List.mem_cons, forall_eq_or_imp, ha', forall_const]
          tauto

end

/-- Nothing to record under the empty path, and nothing at all without a map. -/
def Quiet (leaves : List (List Str)) (path : Str) (keys : Option KeyMap) : Prop :=
  (∀ p ∈ leaves, path ++ parts p ≠ []) ∧ (keys = none → leaves = [])

mutual

theorem sampleV_returns (m : Int) : ∀ (v : SJson) (path : Str) (d : Int) (keys : Option KeyMap),
    Quiet (leavesV m v d) path keys →
    ∃ k e, sampleV m v path d keys = .ok (k, e) ∧ (k = none ↔ keys = none)
  | .obj ms closed, path, d, keys, h => by
    rw [sampleV]
    rw [leavesV] at h
    split
    · exact ⟨_, _, rfl, Iff.rfl⟩
    · rename_i hd
      rw [if_neg hd] at h
      exact sampleMembers_returns m ms closed path d keys h
  | .arr items closed, path, d, keys, h => by
    rw [sampleV]
    rw [leavesV] at h
    split
    · exact ⟨_, _, rfl, Iff.rfl⟩
    · rename_i hd
      rw [if_neg hd] at h
      exact sampleItems_returns m items closed path d keys false h
  | .unknown, path, d, keys, h => by
    rw [sampleV]
    exact ⟨_, _, rfl, Iff.rfl⟩
  | .scalar, path, d, keys, h => by
    rw [sampleV]
    rw [leavesV] at h
    split
    · exact ⟨_, _, rfl, Iff.rfl⟩
    · rename_i hd
      rw [if_neg hd] at h
      obtain ⟨h1, h2⟩ := h
      have hp : path ≠ [] := by simpa [parts] using h1
      cases keys with
      | none => exact absurd (h2 rfl) (by simp)
      | some M =>
        cases path with
        | nil => exact absurd rfl hp
        | cons c p => exact ⟨_, _, rfl, by simp⟩

theorem sampleMembers_returns (m : Int) : ∀ (ms : List (Str × SJson)) (closed : Bool) (path : Str)
    (d : Int) (keys : Option KeyMap), Quiet (leavesM m ms d) path keys →
      ∃ k e, sampleMembers m ms closed path d keys = .ok (k, e) ∧ (k = none ↔ keys = none)
  | [], closed, path, d, keys, h => by rw [sampleMembers]; exact ⟨_, _, rfl, Iff.rfl⟩
  | (n, v) :: ms, closed, path, d, keys, h => by
    rw [sampleMembers]
    rw [leavesM] at h
    obtain ⟨h1, h2⟩ := h
    obtain ⟨k1, e1, hv, hn⟩ := sampleV_returns m v (path ++ keyPart n) (d + 1) keys
      ⟨fun p _ => by simp [keyPart_eq], fun hk => by
        have := h2 hk
        simp only [List.append_eq_nil_iff, List.map_eq_nil_iff] at this
        exact this.1⟩
    rw [hv]
    cases e1 with
    | true => exact ⟨_, _, rfl, hn⟩
    | false =>
      obtain ⟨k2, e2, hm, hn2⟩ := sampleMembers_returns m ms closed path d k1
        ⟨fun p hp => h1 p (by simp [hp]), fun hk => by
          have := h2 (hn.1 hk)
          simp only [List.append_eq_nil_iff] at this
          exact this.2⟩
      exact ⟨_, _, hm, hn2.trans hn⟩

theorem sampleItems_returns (m : Int) : ∀ (vs : List SJson) (closed : Bool) (path : Str)
    (d : Int) (keys : Option KeyMap) (aerr : Bool), Quiet (leavesI m vs d) path keys →
    ∃ k e, sampleItems m vs closed path d keys aerr = .ok (k, e) ∧ (k = none ↔ keys = none)
  | [], closed, path, d, keys, aerr, h => by
    rw [sampleItems]
    exact ⟨_, _, rfl, Iff.rfl⟩
  | v :: vs, closed, path, d, keys, aerr, h => by
    rw [sampleItems]
    rw [leavesI] at h
    obtain ⟨h1, h2⟩ := h
    have hrest : ∀ k, (k = none → keys = none) → Quiet (leavesI m vs d) path k :=
      fun k hk => ⟨fun p hp => h1 p (by simp [hp]), fun hn => (List.append_eq_nil_iff.1 (h2 (hk hn))).2⟩
    split
    · exact sampleItems_returns m vs closed path d keys aerr (hrest keys id)
    · split
      · exact sampleItems_returns m vs closed path d keys aerr (hrest keys id)
      · rename_i ha
        rw [if_neg ha] at h1 h2
        obtain ⟨k1, e1, hv, hn⟩ := sampleV_returns m v path d keys
          ⟨fun p hp => h1 p (by simp [hp]), fun hk => (List.append_eq_nil_iff.1 (h2 hk)).1⟩
        rw [hv]
        obtain ⟨k2, e2, hi, hn2⟩ := sampleItems_returns m vs closed path d k1 e1 (hrest k1 hn.1)
        exact ⟨_, _, hi, hn2.trans hn⟩

end

/-- The bytes are an object or an array, and everything that is opened in it is complete. -/
def Spec.Complete (maxDepth : Int) : SampleIn → Prop
  | .object ms closed => Intact maxDepth 0 (.obj ms closed)
  | .array items closed => Intact maxDepth 0 (.arr items closed)
  | _ => False

theorem sample_complete {s s' : Sampler} {d : SampleIn} {e : Bool} (h : s.sample d = .ok (s', e)) :
    e = false ↔ Complete s.maxDepth d := by
  cases d with
  | empty => cases h
  | rejected => cases h; simp [Complete]
  | object ms closed =>
    rcases hv : sampleV s.maxDepth (.obj ms closed) [] 0 s.keys with p | ⟨k, e1⟩
    · rw [Sampler.sample, hv] at h; cases h
    · have := sampleV_intact _ _ _ _ _ _ _ hv
      rw [Sampler.sample, hv] at h
      cases e1 <;> cases h <;> simpa [Complete] using this
  | array items closed =>
    rcases hv : sampleV s.maxDepth (.arr items closed) [] 0 s.keys with p | ⟨k, e1⟩
    · rw [Sampler.sample, hv] at h; cases h
    · have := sampleV_intact _ _ _ _ _ _ _ hv
      rw [Sampler.sample, hv] at h
      cases e1 <;> cases h <;> simpa [Complete] using this

/-- **C46, exactly.** A call of `Sample` succeeds just when the document is complete, no scalar in reach
stands directly in a top-level array, and, for a sampler that has lost its map, no scalar is in reach at
all. -/
theorem C46_success_exact (s : Sampler) (d : SampleIn) :
    (∃ s', s.sample d = .ok (s', false)) ↔
      Complete s.maxDepth d ∧ (0 ≤ s.maxDepth → ¬ DocLeaf d []) ∧
        (s.keys = none → ∀ p, DocLeaf d p → s.maxDepth < p.length) := by
  constructor
  · rintro ⟨s', h⟩
    refine ⟨(sample_complete h).1 rfl, ?_, ?_⟩
    · intro hm hl
      obtain ⟨keys, hv, -⟩ := sample_visited h
      exact hv.1 [] ((mem_docLeaves _ _ _).2 ⟨hl, by simpa using hm⟩) rfl
    · intro hk p hp
      obtain ⟨keys, hv, -⟩ := sample_visited h
      by_contra hlt
      have : p ∈ docLeaves s.maxDepth d := (mem_docLeaves _ _ _).2 ⟨hp, by omega⟩
      rw [(hv.2.1 hk).1] at this
      cases this
  · rintro ⟨hc, h0, hn⟩
    have hq : Quiet (docLeaves s.maxDepth d) [] s.keys := by
      constructor
      · intro p hp
        obtain ⟨h1, h2⟩ := (mem_docLeaves _ _ _).1 hp
        cases p with
        | nil => exact absurd h1 (h0 (by simpa using h2))
        | cons k p => simp [parts, keyPart_eq]
      · intro hk
        rw [List.eq_nil_iff_forall_not_mem]
        intro p hp
        obtain ⟨h1, h2⟩ := (mem_docLeaves _ _ _).1 hp
        have := hn hk p h1
        omega
    cases d with
    | empty => exact hc.elim
    | rejected => exact hc.elim
    | object ms closed =>
      obtain ⟨k, e, hv, -⟩ := sampleV_returns s.maxDepth (.obj ms closed) [] 0 s.keys hq
      have he := (sampleV_intact _ _ _ _ _ _ _ hv).2 hc
      subst he
      exact ⟨_, by rw [Sampler.sample, hv]; rfl⟩
    | array items closed =>
      obtain ⟨k, e, hv, -⟩ := sampleV_returns s.maxDepth (.arr items closed) [] 0 s.keys hq
      have he := (sampleV_intact _ _ _ _ _ _ _ hv).2 hc
      subst he
      exact ⟨_, by rw [Sampler.sample, hv]; rfl⟩

/-- One call. -/
inductive Spec.SamplerCall
  | sample (d : SampleIn)
  | reset

/-- The calls return (with or without an error) and lead from one state to the other. -/
inductive Spec.Calls : Sampler → List SamplerCall → Sampler → Prop
  | nil (s) : Calls s [] s
  | sample {s s1 s' d e cs} : s.sample d = .ok (s1, e) → Calls s1 cs s' → Calls s (.sample d :: cs) s'
  | reset {s s' cs} : Calls s.reset cs s' → Calls s (.reset :: cs) s'

/-- The documents given after the last `Reset`. -/
def Spec.sinceReset : List SamplerCall → List SampleIn → List SampleIn
  | [], acc => acc
  | .reset :: cs, _ => sinceReset cs []
  | .sample d :: cs, acc => sinceReset cs (acc ++ [d])

/-- A document that looks like one from outside but is not complete. -/
def Spec.Damaged (maxDepth : Int) (d : SampleIn) : Prop :=
  d ≠ .rejected ∧ ¬ Complete maxDepth d

open Classical in
theorem calls_state {s s' : Sampler} {cs : List SamplerCall} (h : Calls s cs s') {m : Int}
    (acc : List SampleIn) (hm : s.maxDepth = m) (ht : s.totalDocs = acc.countP fun d => decide (Complete m d))
    (hk : ∀ M, s.keys = some M →
      M = KeyMap.incAll [] ((acc.filter fun d => decide (Complete m d)).flatMap fun d => (docLeaves m d).map dotted)) :
    s'.totalDocs = (sinceReset cs acc).countP (fun d => decide (Complete m d)) ∧
    (∀ M, s'.keys = some M → M = KeyMap.incAll [] (((sinceReset cs acc).filter fun d => decide (Complete m d)).flatMap
      fun d => (docLeaves m d).map dotted)) ∧
    (s'.keys = none ↔ s.keys = none ∨ ∃ d, .sample d ∈ cs ∧ Damaged m d) := by
  induction h generalizing acc with
  | nil => exact ⟨ht, hk, by simp⟩
  | @sample s s1 s' d e cs h hcs ih =>
    have hc := sample_complete h
    rw [hm] at hc
    cases e with
    | false =>
      have hcd := hc.1 rfl
      obtain ⟨keys, hv, hs1⟩ := sample_visited h
      obtain ⟨i1, i2, i3⟩ := ih (acc ++ [d]) (by rw [hs1]; exact hm)
        (by rw [hs1]; simp [ht, hcd]) (by
          intro M hM
          cases hks : s.keys with
          | none =>
            rw [hs1] at hM
            rw [(hv.2.1 hks).2] at hM
            cases hM
          | some M0 =>
            have := sample_ok hks h
            rw [this] at hM
            rw [hm] at hM
            simp only [Option.some.injEq] at hM
            rw [← hM, hk M0 hks, List.filter_append, List.flatMap_append, KeyMap.incAll_append]
            simp [hcd])
      refine ⟨i1, i2, ?_⟩
      rw [i3]
      have hk1 : s1.keys = none ↔ s.keys = none := by
        rw [hs1]
        constructor
        · intro hn
          cases hks : s.keys with
          | none => rfl
          | some M0 => rw [hv.2.2 M0 hks] at hn; cases hn
        · exact fun hn => (hv.2.1 hn).2
      rw [hk1]
      have : ¬ Damaged m d := fun hd => hd.2 hcd
      constructor
      · rintro (h | ⟨d', h1, h2⟩)
        · exact .inl h
        · exact .inr ⟨d', List.mem_cons_of_mem _ h1, h2⟩
      · rintro (h | ⟨d', h1, h2⟩)
        · exact .inl h
        · rcases List.mem_cons.1 h1 with h1 | h1
          · cases h1; exact absurd h2 this
          · exact .inr ⟨d', h1, h2⟩
    | true =>
      have hcd : ¬ Complete m d := fun h => by cases hc.2 h
      by_cases hr : d = .rejected
      · subst hr
        cases h
        obtain ⟨i1, i2, i3⟩ := ih (acc ++ [.rejected]) hm (by simp [ht, hcd]) (by
          intro M hM
          rw [hk M hM, List.filter_append]
          simp [hcd])
        refine ⟨i1, i2, ?_⟩
        rw [i3]
        constructor
        · rintro (h | ⟨d', h1, h2⟩)
          · exact .inl h
          · exact .inr ⟨d', List.mem_cons_of_mem _ h1, h2⟩
        · rintro (h | ⟨d', h1, h2⟩)
          · exact .inl h
          · rcases List.mem_cons.1 h1 with h1 | h1
            · cases h1; exact absurd rfl h2.1
            · exact .inr ⟨d', h1, h2⟩
      · have hs1 : s1 = { s with keys := none } := by
          cases d with
          | empty => cases h
          | rejected => exact absurd rfl hr
          | object ms closed => exact finish_err h
          | array items closed => exact finish_err h
        obtain ⟨i1, i2, i3⟩ := ih (acc ++ [d]) (by rw [hs1]; exact hm) (by rw [hs1]; simp [ht, hcd]) (by
          intro M hM
          rw [hs1] at hM
          cases hM)
        refine ⟨i1, i2, ?_⟩
        have : s'.keys = none := i3.2 (.inl (by rw [hs1]))
        simp only [this, true_iff]
        exact .inr ⟨d, by simp, hr, hcd⟩
  | @reset s s' cs hcs ih =>
    obtain ⟨i1, i2, i3⟩ := ih [] hm rfl (by
      intro M hM
      cases hks : s.keys with
      | none => simp [Sampler.reset, hks] at hM
      | some M0 => simp [Sampler.reset, hks] at hM; rw [← hM]; rfl)
    refine ⟨i1, i2, ?_⟩
    rw [i3]
    have : s.reset.keys = none ↔ s.keys = none := by cases hks : s.keys <;> simp [Sampler.reset, hks]
    rw [this]
    simp

open Classical in
/-- **C46, exactly, over histories.** After any calls of `Sample` and `Reset` that return: the count is
the number of complete documents since the last `Reset`; if no damaged document was ever given, the keys
are exactly those of these documents; otherwise there are none. -/
theorem C46_history_exact {maxDepth : Int} {cs : List SamplerCall} {s : Sampler}
    (h : Calls (Sampler.new maxDepth) cs s) :
    s.scanned = (sinceReset cs []).countP (fun d => decide (Complete maxDepth d)) ∧
    ((∃ d, .sample d ∈ cs ∧ Damaged maxDepth d) → s.getKeys = []) ∧
    ((¬ ∃ d, .sample d ∈ cs ∧ Damaged maxDepth d) →
      ∀ k, k ∈ s.getKeys ↔ ∃ d ∈ sinceReset cs [], Complete maxDepth d ∧ HasKey maxDepth d k) := by
  obtain ⟨h1, h2, h3⟩ := calls_state h (m := maxDepth) [] rfl rfl (by
    intro M hM
    cases hM
    rfl)
  simp only [Sampler.new, reduceCtorEq, false_or] at h3
  refine ⟨h1, fun hd => ?_, fun hd k => ?_⟩
  · simp [Sampler.getKeys, Sampler.entries, h3.2 hd]
  · cases hk : s.keys with
    | none => exact absurd (h3.1 hk) hd
    | some M =>
      have hM := h2 M hk
      have hok : M.Ok := by rw [hM]; exact new_ok.incAll _
      have : s.getKeys = M.map (·.1) := by simp [Sampler.getKeys, Sampler.entries, hk]
      rw [this, hok.mem_keys, hM, KeyMap.get_incAll]
      simp only [KeyMap.get, Nat.zero_add, List.count_pos_iff, List.mem_flatMap, List.mem_map,
        List.mem_filter, decide_eq_true_eq]
      constructor
      · rintro ⟨d, ⟨hd, hc⟩, p, hp, rfl⟩
        obtain ⟨hl, hlen⟩ := (mem_docLeaves _ _ _).1 hp
        exact ⟨d, hd, hc, p, hl, hlen, rfl⟩
      · rintro ⟨d, hd, hc, p, hl, hlen, rfl⟩
        exact ⟨d, ⟨hd, hc⟩, p, (mem_docLeaves _ _ _).2 ⟨hl, hlen⟩, rfl⟩

-- a document, a rejected one, a reset and another document
example : ∃ s, Calls (Sampler.new 5) [.sample sampleDoc, .sample .rejected, .reset,
    .sample (.object [("x".toList, .scalar)] true)] s ∧ s.getKeys = ["x".toList] ∧ s.scanned = 1 :=
  ⟨_, .sample rfl (.sample rfl (.reset (.sample rfl (.nil _)))), by decide +kernel, rfl⟩

-- a damaged document
example : ∃ s, Calls (Sampler.new 5) [.sample sampleDoc, .sample (.object [("x".toList, .scalar)] false)] s ∧
    s.getKeys = [] ∧ s.scanned = 1 :=
  ⟨_, .sample rfl (.sample rfl (.nil _)), rfl, rfl⟩

end Aql
