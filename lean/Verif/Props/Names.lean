import Verif.Props.EndToEnd
import Verif.Proofs.RereadExact
import Verif.Proofs.Expressible
/-!
Properties C68 and C69: comparisons and trees written as texts.
-/

namespace Aql

open Spec

variable (E : Env)

/-! ### C68 -/

/-- **C68, partial.** The name of a comparison in the statistics is a query, and this query is the same
comparison. Missing from the full statement: names that need quotes for another reason than a space, a
dot or a quote, values whose printed form is not a literal of the language (`WritableName`,
`WritableVal`); for them it is false (`C68_name_refuted`). -/
theorem C68_name_partial (op : Op) (f : List Str) (vs : List Val) (pos : Pos) (hf : f ≠ [])
    (hn : ∀ x ∈ f, WritableName E x) (ha : vs = [] ↔ op = .EXS ∨ op = .NUL)
    (hv : ∀ v ∈ vs, WritableVal E v) :
    ∃ n, grammarOut E (decode (utf8 (friendlyString E op f vs))) = some (.ok n) ∧
      bare n = bare (.expr op f vs pos) := by
  obtain ⟨c, h1, h2⟩ := friendly_laid hf hn ha hv
  obtain ⟨n, h3, h4⟩ := C02_tree_of_tokens E c _ h1
  exact ⟨n, h3, by rw [h4, h2]; rfl⟩

/-- The tree of a text and the tree of its name in the statistics, if the text is a comparison. -/
def reread (s : Str) : Option (Node × Option Node) :=
  match grammarOut E (decode (utf8 s)) with
  | some (.ok (.expr op f vs p)) =>
    some (bare (.expr op f vs p),
      match grammarOut E (decode (utf8 (friendlyString E op f vs))) with
      | some (.ok m) => some (bare m)
      | _ => none)
  | _ => none

/-- The text is a comparison whose name is a text for the same comparison. -/
def rereads (s : Str) : Bool :=
  match reread E s with
  | some (n, some m) => n = m
  | _ => false

/-- **C68, refuted.** Four comparisons whose names are no texts for them: a colon in a field, an escaped
slash in a regular expression, a control character in a string, a whole number written as a float. -/
theorem C68_name_refuted :
    (reread testEnv "\"a:b\":1".toList).map Prod.snd = some none ∧
    (reread testEnv "a:/x\\/y/".toList).map Prod.snd = some none ∧
    (reread testEnv "a:\"\\u0007\"".toList).map Prod.snd = some none ∧
    reread testEnv "a:2.0".toList = some (.expr .EQ ["a".toList] [.float (.fin 2) false noPosition] noPosition,
      some (.expr .EQ ["a".toList] [.int 2 "2".toList noPosition] noPosition)) := by
  decide +kernel

example : rereads testEnv "\"a b\".c :>=( \"x\\n\" ,-5, 10.0.0.1 )".toList = true := by decide +kernel
example : rereads testEnv "a:exists".toList = true := by decide +kernel
example : rereads testEnv "a:-2.50".toList = true ∧ rereads testEnv "a:0.1".toList = true ∧
    rereads testEnv "a:2.0".toList = false := by decide +kernel

/-- Names and values that meet the hypotheses. -/
example : WritableName testEnv "a b".toList ∧ WritableName testEnv "ab".toList ∧
    ¬ WritableName testEnv "a:b".toList := by
  unfold WritableName WritableChar FieldChar
  decide +kernel

example : WritableVal testEnv (.str "x\n".toList noPosition) := by
  refine ⟨⟨_, _, .string (strBody_any _) rfl, rfl⟩, ?_⟩
  unfold WritableChar
  decide +kernel

/-- **C68.** For every comparison that is a query, its name in the statistics is a query for the same comparison if
and only if the path is not empty, its segments are writable names and its values are writable values. -/
theorem C68_name_exact (query : List UInt8) (op : Op) (f : List Str) (vs : List Val) (pos : Pos)
    (hq : grammarOut E (decode query) = some (.ok (.expr op f vs pos))) :
    (∃ n, grammarOut E (decode (utf8 (friendlyString E op f vs))) = some (.ok n) ∧
      bare n = bare (.expr op f vs pos)) ↔
    f ≠ [] ∧ (∀ x ∈ f, WritableName E x) ∧ ∀ v ∈ vs, WritableVal E v := by
  obtain ⟨-, hs, ha, -⟩ : Expressible E (bare (.expr op f vs pos)) := by
    obtain ⟨s, -, hs⟩ := C03_accepted_is_sentence E query _ hq
    obtain ⟨c, ⟨w1, q, w2, -, -, h1, -⟩, h2⟩ := query_laidOut hs
    rw [h2]
    exact laid_expressible h1
  rw [List.map_eq_nil_iff] at ha
  constructor
  · rintro ⟨n, h1, h2⟩
    obtain ⟨t, ht, h3⟩ := grammarOut_iff.1 h1
    rw [decode_utf8] at ht
    have : friendlyString E op f vs = t := List.map_injective_iff.2 (fun a b h => by cases h; rfl) ht
    rw [← this] at h3
    obtain ⟨c, h4, h5⟩ := query_laidOut h3
    exact friendly_exact hs h4 (by rw [← h5, h2]; rfl)
  · rintro ⟨h1, h2, h3⟩
    exact C68_name_partial E op f vs pos h1 h2 ha h3

/-- A comparison that meets the hypotheses, with a name that can be written and a value that cannot. -/
example : grammarOut testEnv (decode (utf8 "a:\"\\u0007\"".toList)) =
      some (.ok (.expr .EQ ["a".toList] [.str "\x07".toList ⟨1, 3, 2, 8⟩] ⟨1, 1, 0, 10⟩)) ∧
    WritableName testEnv "a".toList ∧
    ¬ WritableVal testEnv (.str "\x07".toList ⟨1, 3, 2, 8⟩) := by
  refine ⟨by decide +kernel, ?_, fun h => ?_⟩
  · unfold WritableName WritableChar FieldChar; decide +kernel
  · have := h.2 '\x07' (by simp)
    revert this
    unfold WritableChar
    decide

/-! ### C69 -/

/-- **C69.** Exactly the expressible trees are trees of queries: whatever connectives, fields and values
a tree has, some text denotes it, and no text denotes any other tree. -/
theorem C69_trees_of_queries (t : Node) :
    (∃ query n, grammarOut E (decode query) = some (.ok n) ∧ bare n = t) ↔ Expressible E t := by
  constructor
  · rintro ⟨query, n, h, rfl⟩
    obtain ⟨s, -, hs⟩ := C03_accepted_is_sentence E query n h
    obtain ⟨c, ⟨w1, q, w2, -, -, h1, -⟩, h2⟩ := query_laidOut hs
    rw [h2]
    exact laid_expressible h1
  · intro h
    obtain ⟨c, s, h1, rfl⟩ := laid_any h
    obtain ⟨n, h2, h3⟩ := C02_tree_of_tokens E c s
      ⟨[], s, [], ws_nil, ws_nil, .andOr (.notAnd (.cmpNot h1)), by simp⟩
    exact ⟨utf8 s, n, h2, h3⟩

/-- **C69.** Every string is the value of some query: no character is out of reach. -/
theorem C69_every_string (f : List Str) (hf : ['*'] ∉ f) (x : Str) :
    ∃ query n, grammarOut E (decode query) = some (.ok n) ∧
      bare n = .expr .EQ f [.str x noPosition] noPosition := by
  refine (C69_trees_of_queries E _).2 ⟨rfl, hf, by simp, ?_⟩
  intro v hv
  rw [List.mem_singleton] at hv
  subst hv
  exact ⟨_, _, .string (strBody_any x) rfl, rfl⟩

/-- The grammar has no subdocuments, so no query reaches the code for them. -/
theorem C69_no_subdoc (query : List UInt8) (n : Node) (h : grammarOut E (decode query) = some (.ok n))
    (f : List Str) (e : Node) : n ≠ .subdoc f e := by
  rintro rfl
  exact (C69_trees_of_queries E _).1 ⟨query, _, h, rfl⟩

example : Expressible testEnv (.not (.and (.expr .EXS [] [] noPosition)
    (.expr .SIM ["a:b".toList, []] [.str "\x00\"".toList noPosition] noPosition))) := by
  refine ⟨⟨rfl, by simp, by simp, by simp⟩, rfl, by decide, by simp, ?_⟩
  intro v hv
  rw [List.mem_singleton] at hv
  subst hv
  exact ⟨_, _, .string (strBody_any _) rfl, rfl⟩

end Aql
