import Verif.Proofs.PrintedNode
import Verif.Props.Expectations
import Verif.Props.Grammar
/-!
Property C97: the printed form of a tree (ast.go:34-103) tells trees apart; C05 for the first characters.
-/

namespace Aql

open Spec

variable (E : Env)

/-! ### C05 -/

theorem posAt_start (pre : Str) (c : Char) (u : Str) :
    (posAt pre (c :: u)).isZero = false ∧ (posAt pre (c :: u)).start = posAt pre [c] := by
  have h1 : (1 : Int) ≤ (lineOf pre : Nat) := by unfold lineOf; omega
  have h2 : (1 : Int) ≤ (colOf pre : Nat) := by unfold colOf; omega
  constructor
  · rw [Pos.isZero, beq_eq_false_iff_ne]
    intro h
    have : ((lineOf pre : Nat) : Int) = 0 := congrArg Pos.line h
    omega
  · unfold Pos.start posAt
    rw [if_neg]
    · rfl
    · simp only
      omega

/-- **C05.** The positions of comparisons and values are never the missing position, and `Start` of each marks the
first character of the text. -/
theorem C05_first_character (query : List UInt8) (n : Node) (h : grammarOut E (decode query) = some (.ok n)) :
    ∃ s, query = utf8 s ∧ ∀ e ∈ comparisons n, ∃ op f vs pos, e = .expr op f vs pos ∧
      ∀ p ∈ pos :: vs.map Val.pos, p.isZero = false ∧
        ∃ pre c post, s = pre ++ c :: post ∧ p.offset = bytesOf pre ∧ p.start = posAt pre [c] := by
  obtain ⟨s, hs, h⟩ := C05_positions_exact E query n h
  refine ⟨s, hs, fun e he => ?_⟩
  obtain ⟨op, f, vs, p, t, post, h1, h2, h3, h4⟩ := h e he
  refine ⟨op, f, vs, _, h1, fun x hx => ?_⟩
  rcases List.mem_cons.1 hx with rfl | hx
  · obtain ⟨c, u, rfl, -⟩ := text_head h3
    exact ⟨(posAt_start p c u).1, p, c, u ++ post, h2, rfl, (posAt_start p c u).2⟩
  · obtain ⟨v, hv, rfl⟩ := List.mem_map.1 hx
    obtain ⟨q, u, post', e1, e2, -, h5⟩ := h4 v hv
    obtain ⟨c, u, rfl, -⟩ := lit_cons h5
    rw [e1]
    refine ⟨(posAt_start q c u).1, q, c, u ++ (post' ++ post), ?_, rfl, (posAt_start q c u).2⟩
    rw [h2, ← List.append_assoc, e2]
    simp

-- the first character of a value on the second line
example : (posAt "a:1 AND\nb:".toList "\"é\"".toList).start = ⟨2, 3, 10, 1⟩ ∧
    (posAt "a:1 AND\nb:".toList "\"é\"".toList) = ⟨2, 3, 10, 3⟩ ∧ noPosition.isZero = true ∧ noPosition.start = noPosition := by
  decide

/-! ### C97 -/

/-- **C97**, in part. If the trees of two queries are printed alike, then they are the same tree: the same
connectives around comparisons with the same operator, path and values. Only positions may differ, and whether a
number was written with a fraction. Both build the same matcher.

Missing: patterns in which a slash comes before `)`, `,` or `]` (`C97_pattern_refuted`) and paths of nothing but `*`
(`C97_star_refuted`). -/
theorem C97_printed_alike_partial (s t : Str) (m n : Node) (hm : Query E s m) (hn : Query E t n) (lm : Legible m)
    (ln : Legible n) (h : m.toStr E = n.toStr E) : SameTree m n ∧ build E m = build E n := by
  obtain ⟨_, _, _, -, -, tm, -⟩ := hm
  obtain ⟨_, _, _, -, -, tn, -⟩ := hn
  obtain ⟨h, -⟩ := node_cut (k := 0) (text_readable tm lm) (text_readable tn ln) (.inl rfl) (.inl rfl)
    (by rw [h])
  exact ⟨twinTree_same h, twinTree_build h⟩

/-- The tree of a text. -/
def treeOf (E : Env) (s : Str) : Option Node :=
  match grammarOut E (decode (utf8 s)) with
  | some (.ok n) => some n
  | _ => none

theorem query_of_tree {s : Str} {n : Node} (h : treeOf E s = some n) : Query E s n := by
  unfold treeOf at h
  split at h
  · rename_i m hm
    cases h
    obtain ⟨t, ht, hq⟩ := grammarOut_iff.1 hm
    rw [decode_utf8] at ht
    rwa [map_ok_inj ht]
  · cases h

/-- Three patterns, or two of which one contains slashes, a comma and a space. -/
theorem C97_pattern_refuted : ∃ m n, Query testEnv "a:(/b/,/c/,/d/)".toList m ∧ Query testEnv "a:(/b\\/, \\/c/,/d/)".toList n ∧
    m.toStr testEnv = n.toStr testEnv ∧ ¬ SameTree m n ∧ build testEnv m ≠ build testEnv n := by
  refine ⟨_, _, query_of_tree testEnv (n := .expr .EQ ["a".toList] [.regex "/b/".toList "b".toList ⟨1, 4, 3, 3⟩,
      .regex "/c/".toList "c".toList ⟨1, 8, 7, 3⟩, .regex "/d/".toList "d".toList ⟨1, 12, 11, 3⟩] ⟨1, 1, 0, 15⟩) (by decide +kernel),
    query_of_tree testEnv (n := .expr .EQ ["a".toList] [.regex "/b/, /c/".toList "b/, /c".toList ⟨1, 4, 3, 10⟩,
      .regex "/d/".toList "d".toList ⟨1, 15, 14, 3⟩] ⟨1, 1, 0, 18⟩) (by decide +kernel),
    by decide +kernel, ?_, by decide +kernel⟩
  intro h
  cases h with
  | expr h => cases h with
    | cons _ h => cases h with
      | cons _ h => cases h

/-- A path of nothing but `*` is empty, and printed like the path of the empty name. -/
theorem C97_star_refuted : ∃ m n, Query testEnv "*:1".toList m ∧ Query testEnv "\"\":1".toList n ∧
    m.toStr testEnv = n.toStr testEnv ∧ ¬ SameTree m n ∧ build testEnv m ≠ build testEnv n := by
  refine ⟨_, _, query_of_tree testEnv (n := .expr .EQ [] [.int 1 "1".toList ⟨1, 3, 2, 1⟩] ⟨1, 1, 0, 3⟩) (by decide +kernel),
    query_of_tree testEnv (n := .expr .EQ [[]] [.int 1 "1".toList ⟨1, 4, 3, 1⟩] ⟨1, 1, 0, 4⟩) (by decide +kernel),
    by decide +kernel, ?_, by decide +kernel⟩
  intro h
  cases h

theorem legible_ef : ∀ a c d, "/e.*/f/".toList = a ++ '/' :: c :: d → a ≠ [] → c ≠ ')' ∧ c ≠ ',' ∧ c ≠ ']' := by
  intro a c d h _
  have hc : c ∈ "/e.*/f/".toList := by rw [h]; simp
  refine ⟨?_, ?_, ?_⟩ <;> (rintro rfl; revert hc; decide)

-- two texts with the same printed form: white space, parentheses, `!`, an escape, the fraction of a number; a pattern with a slash
example : ∃ m n, Query testEnv "NOT a:(1,\"x y\") AND \"b)\".c:exists OR d:/e.*\\/f/".toList m ∧
    Query testEnv "((!a:( 1.0 , \"x\\u0020y\")) AND \"b)\".c:exists) OR d : /e.*\\/f/ ".toList n ∧
    Legible m ∧ Legible n ∧ m.toStr testEnv = n.toStr testEnv ∧
    m.toStr testEnv = "(|| (&& (! (== a [1, \"x y\"])) (exists b).c)) (== d /e.*/f/))".toList := by
  refine ⟨_, _, query_of_tree testEnv (n := .or (.and (.not (.expr .EQ [['a']]
          [.int 1 ['1'] ⟨1, 8, 7, 1⟩, .str ['x', ' ', 'y'] ⟨1, 10, 9, 5⟩] ⟨1, 5, 4, 11⟩))
        (.expr .EXS [['b', ')'], ['c']] [] ⟨1, 21, 20, 13⟩))
        (.expr .EQ [['d']] [.regex "/e.*/f/".toList "e.*/f".toList ⟨1, 40, 39, 8⟩] ⟨1, 38, 37, 10⟩)) (by decide +kernel),
    query_of_tree testEnv (n := .or (.and (.not (.expr .EQ [['a']]
          [.float (.fin 1) false ⟨1, 8, 7, 3⟩, .str ['x', ' ', 'y'] ⟨1, 14, 13, 10⟩] ⟨1, 4, 3, 21⟩))
        (.expr .EXS [['b', ')'], ['c']] [] ⟨1, 31, 30, 13⟩))
        (.expr .EQ [['d']] [.regex "/e.*/f/".toList "e.*/f".toList ⟨1, 53, 52, 8⟩] ⟨1, 49, 48, 12⟩)) (by decide +kernel),
    ?_, ?_, by decide +kernel, by decide +kernel⟩
  · simpa [Legible, LegibleVal] using legible_ef
  · simpa [Legible, LegibleVal] using legible_ef

end Aql
