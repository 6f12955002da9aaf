import Verif.Proofs.DocText
import Verif.Props.MatchCost
import Verif.Props.EndToEnd
/-!
Property C124: which texts `Match` takes for documents, and for which (jsonmatcher/jsonmatcher.go:35-40).
-/

namespace Aql

open Spec

variable {E : Env}

/-- A text is accepted, as a document, exactly if it is a JSON text for it with at most 10000 arrays and objects
inside each other. -/
theorem C124_document (s : Str) (d : Json) : docOfText s = .valid d ↔ Encodes s d ∧ nestedIn d ≤ 10000 := by
  constructor
  · intro h
    unfold docOfText at h
    split at h
    · next v r hv =>
      split at h
      · next hr =>
        cases h
        obtain ⟨t, ht, hs, hn⟩ := (doc_sound _).1 _ _ _ _ hv
        obtain ⟨w, hw, hs'⟩ := docSkip_split s
        obtain ⟨w', hw', hr'⟩ := docSkip_split r
        rw [hr, List.append_nil] at hr'
        subst hr'
        exact ⟨⟨w, t, r, by rw [List.append_assoc, ← hs]; exact hs', hw, hw', ht⟩, hn⟩
      · cases h
    · cases h
  · rintro ⟨h, hn⟩
    obtain ⟨r, hv, hr⟩ := encodes_read h (n := maxNesting) hn (f := 2 * s.length + 2) (by omega)
    rw [docOfText, hv]
    simp [hr]

/-- A text is refused exactly if it is a JSON text for nothing, or too deep. -/
theorem C124_invalid (s : Str) : docOfText s = .invalid ↔ ∀ d, Encodes s d → 10000 < nestedIn d := by
  constructor
  · intro h d hd
    by_contra hn
    have := (C124_document s d).2 ⟨hd, by omega⟩
    rw [h] at this
    cases this
  · intro h
    cases hd : docOfText s with
    | invalid => rfl
    | valid d =>
      obtain ⟨he, hn⟩ := (C124_document s d).1 hd
      have := h d he
      omega

/-- A text encodes at most one document. -/
theorem C124_unique {s : Str} {d d' : Json} (h : Encodes s d) (h' : Encodes s d') : d = d' := by
  obtain ⟨r, h1, -⟩ := encodes_read h (Nat.le_max_left (nestedIn d) (nestedIn d')) (Nat.le_refl _)
  obtain ⟨r', h2, -⟩ := encodes_read h' (Nat.le_max_right (nestedIn d) (nestedIn d')) (Nat.le_refl _)
  rw [h1] at h2
  cases h2
  rfl

/-- The documents that `Match` may see: all whose strings and numbers are written as JSON has it, up to that depth. -/
theorem C124_reached (d : Json) : (∃ s, docOfText s = .valid d) ↔ rawsOk d ∧ nestedIn d ≤ 10000 := by
  constructor
  · rintro ⟨s, h⟩
    obtain ⟨⟨w, t, w', -, -, -, ht⟩, hn⟩ := (C124_document s d).1 h
    exact ⟨writes_rawsOk ht, hn⟩
  · rintro ⟨h, hn⟩
    obtain ⟨t, ht⟩ := value_written d h
    exact ⟨t, (C124_document t d).2 ⟨⟨[], t, [], by simp, no_blanks, no_blanks, ht⟩, hn⟩⟩

/-- White space around a document does not matter. -/
theorem C124_blanks {s w w' : Str} (hw : Blanks w) (hw' : Blanks w') : docOfText (w ++ s ++ w') = docOfText s := by
  have key : ∀ d, Encodes (w ++ s ++ w') d ↔ Encodes s d := by
    intro d
    have app : ∀ {a b : Str}, Blanks a → Blanks b → Blanks (a ++ b) := fun ha hb c hc =>
      (List.mem_append.1 hc).elim (ha c) (hb c)
    constructor
    · intro h
      obtain ⟨r, hv, hr⟩ := encodes_read h (Nat.le_refl _) (Nat.le_refl _)
      obtain ⟨t, ht, hs, -⟩ := (doc_sound _).1 _ _ _ _ hv
      obtain ⟨w2, hw2, hs2⟩ := docSkip_split r
      rw [hr, List.append_nil] at hs2
      subst hs2
      obtain ⟨w1, hw1, hs1⟩ := docSkip_split s
      rw [List.append_assoc, docSkip_blanks hw] at hs
      have hne : docSkip s ≠ [] := by
        intro h0
        rw [h0, List.append_nil] at hs1
        rw [hs1, docSkip_blanks hw1, blanks_skip hw'] at hs
        obtain ⟨c, u, rfl, -⟩ := value_starts ht
        cases hs
      have hsw : docSkip (s ++ w') = docSkip s ++ w' := by
        obtain ⟨c, u, hcu⟩ := List.exists_cons_of_ne_nil hne
        have hc : docWs c = false := by
          rw [docSkip] at hcu
          have := List.head?_dropWhile_not docWs s
          rw [hcu] at this
          simpa using this
        conv_lhs => rw [hs1, List.append_assoc, docSkip_blanks hw1, hcu, List.cons_append, docSkip_cons hc]
        rw [hcu, List.cons_append]
      rw [hsw] at hs
      rcases List.append_eq_append_iff.1 hs with ⟨x, h1, h2⟩ | ⟨x, h1, h2⟩
      · have hx : x = [] := by
          rcases List.eq_nil_or_concat x with hx | ⟨y, c, rfl⟩
          · exact hx
          · obtain ⟨u, c', hu, hc'⟩ := value_ends ht
            rw [hu, List.concat_eq_append, ← List.append_assoc] at h1
            have hcc : c' = c := by simpa using (List.append_inj' h1 rfl).2
            have := hw' c (by rw [h2]; simp)
            rw [← docWs_iff, ← hcc, hc'] at this
            cases this
        subst hx
        rw [List.append_nil] at h1
        exact ⟨w1, t, [], by rw [List.append_nil, h1]; exact hs1, hw1, no_blanks, ht⟩
      · refine ⟨w1, t, x, by rw [List.append_assoc, ← h1]; exact hs1, hw1, ?_, ht⟩
        intro c hc
        exact hw2 c (by rw [h2]; simp [hc])
    · rintro ⟨a, t, b, rfl, ha, hb, ht⟩
      exact ⟨w ++ a, t, b ++ w', by simp, app hw ha, app hb hw', ht⟩
  cases h : docOfText s with
  | valid d =>
    rw [C124_document] at h ⊢
    rw [key]
    exact h
  | invalid =>
    rw [C124_invalid] at h ⊢
    intro d hd
    exact h d ((key d).1 hd)

/-- Two JSON texts encode the same document exactly if they differ only in white space outside strings. -/
theorem C124_same_document {s s' : Str} {d d' : Json} (h : Encodes s d) (h' : Encodes s' d') :
    d = d' ↔ squeeze .outside s = squeeze .outside s' := by
  have key : ∀ {s d}, Encodes s d → squeeze .outside s = compact d ∧ Encodes (compact d) d := by
    rintro s d ⟨w, t, w', rfl, hw, hw', ht⟩
    refine ⟨?_, [], _, [], by simp [compactThing], no_blanks, no_blanks, compact_writes ht⟩
    have hb := squeeze_blanks hw' []
    rw [List.append_nil] at hb
    rw [List.append_assoc, squeeze_blanks hw, squeeze_writes ht, hb, squeeze, List.append_nil]
    rfl
  obtain ⟨h1, h2⟩ := key h
  obtain ⟨h3, h4⟩ := key h'
  rw [h1, h3]
  constructor
  · rintro rfl; rfl
  · intro he
    rw [he] at h2
    exact C124_unique h2 h4

/-- So the layout of a document makes no difference to `Match`. -/
theorem C124_layout {s s' : Str} {d d' : Json} (h : Encodes s d) (h' : Encodes s' d')
    (hs : squeeze .outside s = squeeze .outside s') (m : Matcher) :
    m.match E (docOfText s) = m.match E (docOfText s') := by
  have hd : d = d' := (C124_same_document h h').2 hs
  subst hd
  by_cases hn : nestedIn d ≤ 10000
  · rw [(C124_document s d).2 ⟨h, hn⟩, (C124_document s' d).2 ⟨h', hn⟩]
  · have h1 : docOfText s = .invalid := (C124_invalid s).2 fun e he => by rw [C124_unique he h]; omega
    have h2 : docOfText s' = .invalid := (C124_invalid s').2 fun e he => by rw [C124_unique he h']; omega
    rw [h1, h2]

/-! ### sizes -/

theorem writes_weight {t : Str} {x : Thing} (h : Writes t x) : match x with
    | .value v => v.weight ≤ 2 * t.length
    | .items vs => Json.weightItems vs ≤ 2 * t.length + 1
    | .members ms => Json.weightMembers ms ≤ 2 * t.length := by
  induction h with
  | @num raw h =>
    obtain ⟨c, u, rfl, -⟩ := number_starts h
    simp [Json.weight]
    omega
  | _ => simp_all [Json.weight, Json.weightItems, Json.weightMembers] <;> omega

/-- The size of a document is at most twice the length of its text. -/
theorem C124_size {s : Str} {d : Json} (h : Encodes s d) : d.weight ≤ 2 * s.length := by
  obtain ⟨w, t, w', rfl, -, -, ht⟩ := h
  have := writes_weight ht
  simp only at this
  simp
  omega

/-- Matching costs at most eight times the length of the query text times the length of the document text. -/
theorem C124_match_cost {c : Cst} {s t : Str} (hc : LaidOut E c s) {m : Matcher} {ms : List Msg}
    (h : newMatcher E (utf8 s) = some (.ok (.ok (m, ms)))) {d : Json} (ht : docOfText t = .valid d) (hd : ∀ xs, d ≠ .arr xs) :
    (m.root.cost E d).1 ≤ 8 * s.length * t.length := by
  have h1 := C112_match_cost hc h hd
  have h2 := C124_size ((C124_document t d).1 ht).1
  calc (m.root.cost E d).1 ≤ 4 * s.length * d.weight := h1
    _ ≤ 4 * s.length * (2 * t.length) := Nat.mul_le_mul_left _ h2
    _ = 8 * s.length * t.length := by ring

/-! ### answers -/

/-- From two texts to an answer: a compiled query answers on a text with the meaning of the query on the document the
text encodes, and on every other text with an error. -/
theorem C124_answer {query : List UInt8} {m : Matcher} {msgs : List Msg}
    (h : newMatcher E query = some (.ok (.ok (m, msgs)))) (t : Str) :
    ∃ s n, query = utf8 s ∧ Query E s n ∧
      (∀ d, Encodes t d → nestedIn d ≤ 10000 → PathsIn (Plain d) n →
        ((m.match E (docOfText t)).2 = .result true ↔ Sat E d n) ∧
        ((m.match E (docOfText t)).2 = .result false ↔ ¬ Sat E d n)) ∧
      ((m.match E (docOfText t)).2 = .invalidJSON ↔ ∀ d, Encodes t d → 10000 < nestedIn d) := by
  obtain ⟨s, n, hs, hq, -, -, hm⟩ := C59_matcher_means_text E query m msgs h
  refine ⟨s, n, hs, hq, fun d hd hn hp => ?_, ?_⟩
  · rw [(C124_document t d).2 ⟨hd, hn⟩]
    rcases hm m d rfl hp with ⟨h1, h2⟩ | ⟨h1, h2⟩ <;> rw [h1] <;> simp [h2]
  · rw [← C124_invalid]
    cases hd : docOfText t with
    | invalid => simp [Matcher.match]
    | valid d =>
      simp only [Matcher.match, reduceCtorEq, iff_false]
      rcases m.root.result E d [] with ⟨ts, e | b⟩ <;> simp

/-! ### too deep -/

/-- Arrays inside each other. -/
def deepArrays : Nat → Json
  | 0 => .arr []
  | n + 1 => .arr [deepArrays n]

theorem deepArrays_writes : ∀ n, Writes (List.replicate (n + 1) '[' ++ List.replicate (n + 1) ']') (.value (deepArrays n))
  | 0 => .noItems no_blanks
  | n + 1 => by
    have := Writes.arr (.item no_blanks (deepArrays_writes n) no_blanks)
    simpa [List.replicate_succ' (n := n + 1) (a := ']'), List.replicate_succ (n := n + 1) (a := '['), deepArrays] using this

theorem deepArrays_nested (n : Nat) : nestedIn (deepArrays n) = n + 1 := by
  induction n with
  | zero => rfl
  | succ n ih => simp [deepArrays, nestedIn, nestedInItems, ih]

/-- Not every JSON text is accepted: more than ten thousand brackets are too much. -/
theorem C124_too_deep (n : Nat) (h : 10000 ≤ n) :
    Encodes (List.replicate (n + 1) '[' ++ List.replicate (n + 1) ']') (deepArrays n) ∧
      docOfText (List.replicate (n + 1) '[' ++ List.replicate (n + 1) ']') = .invalid := by
  have he : Encodes (List.replicate (n + 1) '[' ++ List.replicate (n + 1) ']') (deepArrays n) :=
    ⟨[], _, [], by rw [List.nil_append, List.append_nil], no_blanks, no_blanks, deepArrays_writes n⟩
  refine ⟨he, (C124_invalid _).2 fun d hd => ?_⟩
  rw [C124_unique hd he, deepArrays_nested]
  omega

mutual

/-- Equality of documents, for the example. -/
def docSame : Json → Json → Bool
  | .null, .null => true
  | .bool a, .bool b => a == b
  | .num a, .num b => a == b
  | .str a, .str b => a == b
  | .arr a, .arr b => docSameItems a b
  | .obj a, .obj b => docSameMembers a b
  | _, _ => false

def docSameItems : List Json → List Json → Bool
  | [], [] => true
  | a :: as, b :: bs => docSame a b && docSameItems as bs
  | _, _ => false

def docSameMembers : List (Str × Json) → List (Str × Json) → Bool
  | [], [] => true
  | (k, a) :: as, (l, b) :: bs => k == l && docSame a b && docSameMembers as bs
  | _, _ => false

end

/-- Whether a text is accepted, and for what. -/
def readsAs (s : Str) (d : Option Json) : Bool :=
  match docOfText s, d with
  | .invalid, none => true
  | .valid v, some d => docSame v d
  | _, _ => false

/-- Documents with white space, escapes and a number with all its parts, and texts that are none. -/
example :
    readsAs " { \"a\" : [ -1.50e+3 , true ] } ".toList (some (.obj [(['a'], .arr [.num "-1.50e+3".toList, .bool true])])) = true ∧
    readsAs "\"\\u00e9\\n\"".toList (some (.str "\\u00e9\\n".toList)) = true ∧
    readsAs "[01]".toList none = true ∧ readsAs "{\"a\":1,}".toList none = true ∧ readsAs "1.".toList none = true ∧
    readsAs "\"\\x\"".toList none = true ∧ readsAs "[] []".toList none = true ∧ readsAs [] none = true := by
  decide +kernel

/-- A query and two texts: `a:>1` on `{"a":2}` and on `{"a":2`. -/
example : Encodes ['{', '"', 'a', '"', ':', '2', '}'] (.obj [(['a'], .num ['2'])]) ∧
    answerOf testEnv "a:>1".toList (.obj [(['a'], .num ['2'])]) = some true ∧
    readsAs ['{', '"', 'a', '"', ':', '2'] none = true := by
  have hn : NumberBody ['2'] :=
    ⟨[], ['2'], [], [], rfl, .inl rfl, .inr ⟨⟨by simp, by decide⟩, by decide⟩, .inl rfl, .inl rfl⟩
  have hs : StringBody ['a'] := .plain (by decide) (by decide) (by decide) .nil
  have h := Writes.obj (.member no_blanks hs no_blanks no_blanks (.num hn) no_blanks)
  exact ⟨⟨[], _, [], rfl, no_blanks, no_blanks, h⟩, by decide +kernel, by decide +kernel⟩

/-- The condition that both are JSON texts is needed: `1 2` and `12` differ in white space only. -/
example : squeeze .outside "{ \"a b\" : 1 ,\n \"\\\" \" : 2 }".toList = "{\"a b\":1,\"\\\" \":2}".toList ∧
    squeeze .outside "1 2".toList = "12".toList ∧ readsAs "1 2".toList none = true ∧
    readsAs "12".toList (some (.num "12".toList)) = true := by
  decide +kernel

end Aql
