import Verif.Model.Basic
/-!
Positions in a text, independently of the parser: an offset counts the bytes of the text before it, a
line the newlines before it, a column the characters since the last newline.
-/

namespace Aql.Spec

/-- Line of the position after `pre`, from 1. -/
def lineOf (pre : Str) : Nat := 1 + pre.count '\n'

/-- Column of the position after `pre`, from 1. -/
def colOf (pre : Str) : Nat := 1 + (pre.reverse.takeWhile (· ≠ '\n')).length

/-- Bytes of `pre`. -/
def bytesOf (pre : Str) : Nat := (pre.map Char.utf8Size).sum

/-- The text in UTF-8, by the encoder of Lean's library. -/
def utf8 (s : Str) : List UInt8 := s.flatMap String.utf8EncodeChar

example : lineOf "ab\nc\n\nde".toList = 4 ∧ colOf "ab\nc\n\nde".toList = 3 := by decide

example : bytesOf "aé€😀".toList = 10 := by decide

theorem lineOf_snoc (pre : Str) (c : Char) :
    lineOf (pre ++ [c]) = if c = '\n' then lineOf pre + 1 else lineOf pre := by
  unfold lineOf
  rw [List.count_append, List.count_singleton]
  by_cases h : c = '\n'
  · subst h; simp; omega
  · simp [h]

theorem colOf_snoc (pre : Str) (c : Char) :
    colOf (pre ++ [c]) = if c = '\n' then 1 else colOf pre + 1 := by
  unfold colOf
  rw [List.reverse_append]
  by_cases h : c = '\n'
  · subst h; simp
  · simp [h]; omega

theorem bytesOf_append (a b : Str) : bytesOf (a ++ b) = bytesOf a + bytesOf b := by
  simp [bytesOf]

end Aql.Spec
