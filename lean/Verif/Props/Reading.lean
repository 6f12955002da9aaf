import Verif.Proofs.Reading
import Verif.Props.JsonText
import Verif.Props.Sharp
/-!
Property C127: queries on what the repository writes.
-/

namespace Aql

open Spec

variable {E : Env} {short : Bool}

/-- What is written, as the matcher sees it. -/
theorem written_doc {v : JOut} {t : Str} (ht : t = v.flat short ∨ ∃ n, t = v.text short n) (hn : joutNested v ≤ 10000)
    (hv : ∀ vs, v ≠ .arr vs) : ∃ d, docOfText t = .valid d ∧ DocFor d v ∧ ∀ path, path ≠ [] → Plain d path := by
  obtain ⟨d, h1, h2⟩ := (C126_match short v ht).1 hn
  refine ⟨d, h1, (h2 v).2 rfl, fun path hp => ?_⟩
  cases path with
  | nil => exact absurd rfl hp
  | cons k rest =>
    refine ⟨k, rest, rfl, ?_⟩
    rintro ⟨xs, rfl⟩
    obtain ⟨vs, rfl, -⟩ := docFor_arr ((h2 v).2 rfl)
    exact absurd rfl (hv vs)

/-- **C127.** `path:exists` on what is written: yes exactly if the names lead to something in the value. -/
theorem C127_exists (hE : UnescapesJson E) {v : JOut} {t : Str} (ht : t = v.flat short ∨ ∃ n, t = v.text short n)
    (hn : joutNested v ≤ 10000) (hv : ∀ vs, v ≠ .arr vs) {path : List Str} (hp : path ≠ []) {pos : Pos} {m : Matcher}
    (h : Ready E (.expr .EXS path [] pos) m) :
    (m.match E (docOfText t)).2 = .result true ↔ ∃ w, LiesUnder v path w := by
  obtain ⟨d, hd, hf, hpl⟩ := written_doc ht hn hv
  rw [hd]
  change Accepts E m d ↔ _
  rw [h.accepts (hpl _ hp)]
  simp only [Sat]
  constructor
  · rintro ⟨x, hx⟩
    obtain ⟨w, hw, -⟩ := resolves_lies hE hx hf
    exact ⟨w, hw⟩
  · rintro ⟨w, hw⟩
    obtain ⟨x, hx, -⟩ := lies_resolves hE hw hf
    exact ⟨x, hx⟩

/-- `path:null`: yes exactly if the names lead to null and to nothing else. -/
theorem C127_null (hE : UnescapesJson E) {v : JOut} {t : Str} (ht : t = v.flat short ∨ ∃ n, t = v.text short n)
    (hn : joutNested v ≤ 10000) (hv : ∀ vs, v ≠ .arr vs) {path : List Str} (hp : path ≠ []) {pos : Pos} {m : Matcher}
    (h : Ready E (.expr .NUL path [] pos) m) :
    (m.match E (docOfText t)).2 = .result true ↔ LiesUnder v path .null ∧ ∀ w, LiesUnder v path w → w = .null := by
  obtain ⟨d, hd, hf, hpl⟩ := written_doc ht hn hv
  have null : ∀ {x w}, DocFor x w → (x = .null ↔ w = .null) := by
    intro x w h
    constructor
    · rintro rfl; cases w <;> simp_all [DocFor]
    · rintro rfl; cases x <;> simp_all [DocFor]
  rw [hd]
  change Accepts E m d ↔ _
  rw [h.accepts (hpl _ hp)]
  simp only [Sat]
  constructor
  · rintro ⟨⟨x, hx⟩, hall⟩
    have key : ∀ w, LiesUnder v path w → w = .null := by
      intro w hw
      obtain ⟨y, hy, hyw⟩ := lies_resolves hE hw hf
      exact (null hyw).1 (hall y hy)
    obtain ⟨w, hw, -⟩ := resolves_lies hE hx hf
    refine ⟨?_, key⟩
    rw [← key w hw]
    exact hw
  · rintro ⟨h1, h2⟩
    obtain ⟨x, hx, -⟩ := lies_resolves hE h1 hf
    refine ⟨⟨x, hx⟩, fun y hy => ?_⟩
    obtain ⟨w, hw, hyw⟩ := resolves_lies hE hy hf
    exact (null hyw).2 (h2 w hw)

/-- `path:"literal"`, if the names lead to no number: yes exactly if the literal holds of one of the strings. -/
theorem C127_string (hE : UnescapesJson E) {v : JOut} {t : Str} (ht : t = v.flat short ∨ ∃ n, t = v.text short n)
    (hn : joutNested v ≤ 10000) (hv : ∀ vs, v ≠ .arr vs) {path : List Str} (hp : path ≠ [])
    (hnum : ∀ i, ¬ FoundUnder v path (.num i)) {lit : Str} {p pos : Pos} {m : Matcher}
    (h : Ready E (.expr .EQ path [.str lit p] pos) m) :
    (m.match E (docOfText t)).2 = .result true ↔ ∃ s, FoundUnder v path (.str s) ∧ StrHolds E lit s := by
  obtain ⟨d, hd, hf, hpl⟩ := written_doc ht hn hv
  rw [hd]
  change Accepts E m d ↔ _
  rw [h.accepts (hpl _ hp)]
  simp only [Sat, List.mem_singleton, exists_eq_left, EqHolds]
  constructor
  · rintro ⟨s, hs, x, hx, ho⟩
    obtain ⟨w, hw, hsw⟩ := scalar_found hE hf hs
    cases hx with
    | str hu =>
      cases w <;> simp only [DocFor] at hsw
      rw [hE _ _ hsw] at hu
      cases hu
      exact ⟨_, hw, ho⟩
    | num _ _ _ =>
      cases w <;> simp only [DocFor] at hsw
      exact absurd hw (hnum _)
  · rintro ⟨x, hx, ho⟩
    obtain ⟨s, hs, hsw⟩ := found_scalar hE hf hx ⟨by simp, by simp⟩
    cases s <;> simp only [DocFor] at hsw
    exact ⟨_, hs, x, .str (hE _ _ hsw), ho⟩

theorem readInt_intText {raw : Str} {i : Int} (h : readInt raw = some (i, [])) : IntText raw i := by
  obtain ⟨neg, s, heq, h⟩ : ∃ neg s, (match raw with | '-' :: r => (true, r) | r => (false, r)) = (neg, s) ∧
      (if s.takeWhile isDecimal = [] ∨ ((s.takeWhile isDecimal).head? = some '0' ∧ 1 < (s.takeWhile isDecimal).length) then none
        else some (if neg then -(digitsValue (s.takeWhile isDecimal) : Int) else digitsValue (s.takeWhile isDecimal),
          s.dropWhile isDecimal)) = some (i, []) := ⟨_, _, rfl, h⟩
  by_cases hz : s.takeWhile isDecimal = [] ∨
      ((s.takeWhile isDecimal).head? = some '0' ∧ 1 < (s.takeWhile isDecimal).length)
  · rw [if_pos hz] at h
    cases h
  rw [if_neg hz] at h
  simp only [Option.some.injEq, Prod.mk.injEq] at h
  rw [not_or] at hz
  have hall := List.dropWhile_eq_nil_iff.1 h.2
  have hs : s.takeWhile isDecimal = s := List.takeWhile_eq_self_iff.2 hall
  rw [hs] at h hz
  have hd : AllDigits s := fun c hc => by
    have := hall c hc
    simpa [isDecimal] using this
  split at heq
  · simp only [Prod.mk.injEq] at heq
    obtain ⟨rfl, rfl⟩ := heq
    exact ⟨['-'], true, _, by constructor, hz.1, hd, rfl, h.1.symm⟩
  · simp only [Prod.mk.injEq] at heq
    obtain ⟨rfl, rfl⟩ := heq
    exact ⟨[], false, _, by constructor, hz.1, hd, rfl, h.1.symm⟩

/-- `path:number`, if the names lead to nothing but numbers and the one in the query is small: yes exactly if it is one of
them, whatever their size. -/
theorem C127_number (hE : UnescapesJson E) {v : JOut} {t : Str} (ht : t = v.flat short ∨ ∃ n, t = v.text short n)
    (hn : joutNested v ≤ 10000) (hv : ∀ vs, v ≠ .arr vs) {path : List Str} (hp : path ≠ [])
    (hnum : ∀ w, FoundUnder v path w → w ≠ .null ∧ ∀ s, w ≠ .str s) {n : ℤ} {sv : Str} {p pos : Pos} {m : Matcher}
    (hsmall : |n| < 2 ^ 53) (h : Ready E (.expr .EQ path [.int n sv p] pos) m) :
    (m.match E (docOfText t)).2 = .result true ↔ FoundUnder v path (.num n) := by
  obtain ⟨d, hd, hf, hpl⟩ := written_doc ht hn hv
  have key : ∀ s, ScalarUnder E d path s → ∃ raw k, s = .num raw ∧ FoundUnder v path (.num k) ∧ IntText raw k := by
    intro s hs
    obtain ⟨w, hw, hsw⟩ := scalar_found hE hf hs
    have := hnum w hw
    cases s with
    | num raw =>
      cases w <;> simp only [DocFor] at hsw
      exact ⟨raw, _, rfl, hw, readInt_intText hsw⟩
    | null => cases w <;> simp_all [DocFor]
    | bool => cases w <;> simp_all [DocFor]
    | str =>
      cases w <;> simp only [DocFor] at hsw
      exact absurd rfl (this.2 _)
    | arr => exact absurd hs.1 (by simp [IsScalar])
    | obj => exact absurd hs.1 (by simp [IsScalar])
  rw [hd]
  change Accepts E m d ↔ _
  rw [C29_small_literal hsmall h (hpl _ hp) fun s hs => by
    obtain ⟨raw, k, rfl, -, hk⟩ := key s hs
    exact ⟨raw, k, rfl, intText_decText hk⟩]
  constructor
  · rintro ⟨raw, hs, hdec⟩
    obtain ⟨raw', k, he, hw, hk⟩ := key _ hs
    cases he
    have : ((k : ℤ) : ℚ) = n := Option.some.inj (((decimalValue_iff _ _).2 (intText_decText hk)).symm.trans ((decimalValue_iff _ _).2 hdec))
    have : k = n := by exact_mod_cast this
    rwa [← this]
  · intro hw
    obtain ⟨s, hs, hsw⟩ := found_scalar hE hf hw ⟨by simp, by simp⟩
    cases s <;> simp only [DocFor] at hsw
    exact ⟨_, hs, intText_decText (readInt_intText hsw)⟩

theorem lies_one {ms : List (Str × JOut)} {k : Str} {w : JOut} : LiesUnder (.obj ms) [k] w ↔ FirstNamed ms k w := by
  constructor
  · intro h
    cases h
    assumption
  · exact .last

theorem firstNamed_cons {ms : List (Str × JOut)} {k k' : Str} {v w : JOut} :
    FirstNamed ((k', v) :: ms) k w ↔ (k' = k ∧ v = w) ∨ (k' ≠ k ∧ FirstNamed ms k w) := by
  constructor
  · rintro ⟨pre, post, he, hp⟩
    cases pre with
    | nil => simp only [List.nil_append, List.cons.injEq, Prod.mk.injEq] at he; exact .inl he.1
    | cons a pre =>
      simp only [List.cons_append, List.cons.injEq] at he
      refine .inr ⟨?_, pre, post, he.2, fun p h => hp p (by simp [h])⟩
      have := hp a (by simp)
      rwa [← he.1] at this
  · rintro (⟨rfl, rfl⟩ | ⟨hk, pre, post, rfl, hp⟩)
    · exact ⟨[], ms, rfl, by simp⟩
    · refine ⟨(k', v) :: pre, post, rfl, ?_⟩
      intro p h
      rcases List.mem_cons.1 h with rfl | h
      · exact hk
      · exact hp p h

theorem firstNamed_nil {k : Str} {w : JOut} : ¬ FirstNamed [] k w := by
  rintro ⟨pre, post, he, -⟩
  simp at he

/-- The statistics that aqltest prints can be queried: the counters are answered as they are, the name of the node by the
rules for strings, and there are no other fields. -/
theorem C127_stats (hE : UnescapesJson E) {m0 : Matcher} {s : MatchStats} (h0 : m0.stats = .ok s) {m : Matcher} {pos : Pos} :
    (∀ n sv p, |n| < 2 ^ 53 → Ready E (.expr .EQ ["times_checked".toList] [.int n sv p] pos) m →
      ((m.match E (docOfText (statsText short s))).2 = .result true ↔ n = (m0.counters []).1)) ∧
    (∀ n sv p, |n| < 2 ^ 53 → Ready E (.expr .EQ ["times_matched".toList] [.int n sv p] pos) m →
      ((m.match E (docOfText (statsText short s))).2 = .result true ↔ n = (m0.counters []).2)) ∧
    (∀ lit p, Ready E (.expr .EQ ["node_name".toList] [.str lit p] pos) m →
      ((m.match E (docOfText (statsText short s))).2 = .result true ↔ StrHolds E lit m0.root.name)) ∧
    (∀ k, Ready E (.expr .EXS [k] [] pos) m → ((m.match E (docOfText (statsText short s))).2 = .result true ↔
      k ∈ ["node_name".toList, "times_checked".toList, "times_matched".toList])) := by
  have h2 : s.json = .obj [("node_name".toList, .str m0.root.name),
      ("times_checked".toList, .num (m0.counters []).1), ("times_matched".toList, .num (m0.counters []).2)] := by
    have h1 := C76_stats_text short h0
    rw [statsText, readJson_text] at h1
    exact Option.some.inj h1
  have ht : statsText short s = s.json.flat short ∨ ∃ n, statsText short s = s.json.text short n := .inr ⟨0, rfl⟩
  have hn : joutNested s.json ≤ 10000 := by rw [h2]; simp [joutNested, joutNestedMembers]
  have hv : ∀ vs, s.json ≠ .arr vs := by rw [h2]; simp
  have a1 : "node_name".toList ≠ "times_checked".toList := by decide
  have a2 : "node_name".toList ≠ "times_matched".toList := by decide
  have a3 : "times_checked".toList ≠ "times_matched".toList := by decide
  have lies : ∀ k w, LiesUnder s.json [k] w ↔ ("node_name".toList = k ∧ .str m0.root.name = w) ∨
      ("times_checked".toList = k ∧ .num (m0.counters []).1 = w) ∨ ("times_matched".toList = k ∧ .num (m0.counters []).2 = w) := by
    intro k w
    rw [h2, lies_one, firstNamed_cons, firstNamed_cons, firstNamed_cons]
    constructor
    · rintro (h | ⟨-, h | ⟨-, h | ⟨-, h⟩⟩⟩)
      · exact .inl h
      · exact .inr (.inl h)
      · exact .inr (.inr h)
      · exact absurd h firstNamed_nil
    · rintro (h | ⟨rfl, h⟩ | ⟨rfl, h⟩)
      · exact .inl h
      · exact .inr ⟨a1, .inl ⟨rfl, h⟩⟩
      · exact .inr ⟨a2, .inr ⟨a3, .inl ⟨rfl, h⟩⟩⟩
  have found : ∀ k w, FoundUnder s.json [k] w ↔ LiesUnder s.json [k] w := by
    intro k w
    constructor
    · rintro (h | ⟨items, h, -⟩)
      · exact h
      · rw [lies] at h
        simp at h
    · exact .inl
  refine ⟨?_, ?_, ?_, ?_⟩
  · intro n sv p hs h
    rw [C127_number hE ht hn hv (by simp) ?_ hs h, found, lies]
    · constructor
      · rintro (⟨h, -⟩ | ⟨-, h⟩ | ⟨h, -⟩)
        · exact absurd h a1
        · cases h; rfl
        · exact absurd h a3.symm
      · rintro rfl
        exact .inr (.inl ⟨rfl, rfl⟩)
    · intro w hw
      rw [found, lies] at hw
      rcases hw with ⟨h, -⟩ | ⟨-, rfl⟩ | ⟨h, -⟩
      · exact absurd h a1
      · simp
      · exact absurd h a3.symm
  · intro n sv p hs h
    rw [C127_number hE ht hn hv (by simp) ?_ hs h, found, lies]
    · constructor
      · rintro (⟨h, -⟩ | ⟨h, -⟩ | ⟨-, h⟩)
        · exact absurd h a2
        · exact absurd h a3
        · cases h; rfl
      · rintro rfl
        exact .inr (.inr ⟨rfl, rfl⟩)
    · intro w hw
      rw [found, lies] at hw
      rcases hw with ⟨h, -⟩ | ⟨h, -⟩ | ⟨-, rfl⟩
      · exact absurd h a2
      · exact absurd h a3
      · simp
  · intro lit p h
    rw [C127_string hE ht hn hv (by simp) ?_ h]
    · simp only [found, lies]
      constructor
      · rintro ⟨x, ⟨-, h⟩ | ⟨h, -⟩ | ⟨h, -⟩, ho⟩
        · cases h; exact ho
        · exact absurd h a1.symm
        · exact absurd h a2.symm
      · exact fun h => ⟨_, .inl ⟨trivial, rfl⟩, h⟩
    · intro i hi
      rw [found, lies] at hi
      rcases hi with ⟨-, h⟩ | ⟨h, -⟩ | ⟨h, -⟩
      · cases h
      · exact absurd h a1.symm
      · exact absurd h a2.symm
  · intro k h
    rw [C127_exists hE ht hn hv (by simp) h]
    simp only [lies, List.mem_cons, List.not_mem_nil, or_false]
    constructor
    · rintro ⟨w, ⟨h, -⟩ | ⟨h, -⟩ | ⟨h, -⟩⟩
      · exact .inl h.symm
      · exact .inr (.inl h.symm)
      · exact .inr (.inr h.symm)
    · rintro (h | h | h)
      · exact ⟨_, .inl ⟨h.symm, rfl⟩⟩
      · exact ⟨_, .inr (.inl ⟨h.symm, rfl⟩)⟩
      · exact ⟨_, .inr (.inr ⟨h.symm, rfl⟩)⟩

/-- A library that decodes the escapes. -/
def decodingEnv : Env :=
  { testEnv with unescape := fun raw => match readString (raw ++ ['"']) with | some (s, []) => some s | _ => none }

theorem decodingEnv_unescapes : UnescapesJson decodingEnv := by
  intro raw s h
  simp only [decodingEnv, h]

/-! The query `times_matched:2` on statistics where that counter is two, and where it is three. -/

example : (match newMatcher decodingEnv (utf8 "times_matched:2".toList) with
    | some (.ok (.ok (m, _))) => some (m.match decodingEnv (docOfText (statsText false ⟨"&&".toList, 5, 2, []⟩))).2
    | _ => none) = some (.result true) := by decide +kernel
example : (match newMatcher decodingEnv (utf8 "times_matched:2".toList) with
    | some (.ok (.ok (m, _))) => some (m.match decodingEnv (docOfText (statsText false ⟨"&&".toList, 5, 3, []⟩))).2
    | _ => none) = some (.result false) := by decide +kernel

end Aql
