import Verif.Model.Basic
/-!
JavaScript strings: UTF-16 code units, and substrings by code unit.
-/

namespace Aql.Spec

/-- Code units of a character. -/
def units (c : Char) : List Nat :=
  if c.toNat < 0x10000 then [c.toNat]
  else [0xD800 + (c.toNat - 0x10000) / 0x400, 0xDC00 + (c.toNat - 0x10000) % 0x400]

/-- Code units of a text. -/
def utf16 (s : Str) : List Nat := s.flatMap units

/-- `text.slice(a, b)`. -/
def jsSlice (text : List Nat) (a b : Int) : List Nat := (text.drop a.toNat).take (b.toNat - a.toNat)

/-- Only ASCII characters. -/
def AsciiText (s : Str) : Prop := ∀ c ∈ s, c.toNat < 128

example : utf16 "a€😀".toList = [0x61, 0x20AC, 0xD83D, 0xDE00] := by decide

example : jsSlice (utf16 "abcd".toList) 1 3 = utf16 "bc".toList := by decide

end Aql.Spec
