import Verif.Model.Basic
/-!
Go regular expressions, as far as `stringSearchRegexp` generates them.

`parseFrag` recognises the texts `(?i)` followed by the atoms `\b`, `.`, `.*?`, a backslash-escaped
punctuation character, or a character that is not special. Every other pattern text is left to the
parameters `reOk`/`reMatch` of the environment (user regular expressions are opaque).
-/

namespace Aql

/-- regexp.QuoteMeta: the characters that get a backslash (Go `specialBytes`). -/
def isMeta (c : Char) : Bool :=
  c ∈ ['\\', '.', '+', '*', '?', '(', ')', '|', '[', ']', '{', '}', '^', '$']

/-- regexp.QuoteMeta. -/
def quoteMeta : Str → Str
  | [] => []
  | c :: s => if isMeta c then '\\' :: c :: quoteMeta s else c :: quoteMeta s

/-- Atoms of the fragment. -/
inductive Atom
  /-- a literal character (matched case-insensitively: the fragment always starts with `(?i)`) -/
  | lit (c : Char)
  /-- `.`: any character except newline -/
  | any
  /-- `.*?`: any run of characters except newline -/
  | star
  /-- `\b`: ASCII word boundary -/
  | wb
  deriving DecidableEq, Repr

/-- regexp/syntax `parse`: the characters that do not stand for themselves (`{` does unless a repeat
count follows; such texts are left outside the fragment). -/
def isOperator (c : Char) : Bool :=
  c ∈ ['(', ')', '|', '[', '.', '*', '+', '?', '{', '^', '$', '\\']

/-- regexp/syntax `parseEscape`: after a backslash, an ASCII character that is neither letter nor
digit stands for itself. -/
def isPunct (c : Char) : Bool :=
  c.toNat < 128 && !c.isAlphanum

/-- Parser for the atoms (Go regexp/syntax, restricted). -/
def parseAtoms : Str → Option (List Atom)
  | [] => some []
  | '\\' :: c :: s =>
    if c = 'b' then (parseAtoms s).map (Atom.wb :: ·)
    else if isPunct c then (parseAtoms s).map (Atom.lit c :: ·)
    else none
  | '.' :: '*' :: '?' :: s => (parseAtoms s).map (Atom.star :: ·)
  | '.' :: s => (parseAtoms s).map (Atom.any :: ·)
  | c :: s => if isOperator c then none else (parseAtoms s).map (Atom.lit c :: ·)

/-- Parser for the whole fragment. -/
def parseFrag : Str → Option (List Atom)
  | '(' :: '?' :: 'i' :: ')' :: s => parseAtoms s
  | _ => none

/-- ASCII word character, `\w`. -/
def isWord (c : Char) : Bool :=
  ('0' ≤ c && c ≤ '9') || ('a' ≤ c && c ≤ 'z') || ('A' ≤ c && c ≤ 'Z') || c == '_'

/-- ASCII lower-casing of one character. -/
def asciiLower (c : Char) : Char :=
  if 'A' ≤ c ∧ c ≤ 'Z' then Char.ofNat (c.toNat + 32) else c

/-- `\b` between an optional previous and an optional next character. -/
def isBoundary (prev next : Option Char) : Bool :=
  (prev.any isWord) != (next.any isWord)

/-- Match the atoms at the current position; `prev` is the character before it. `eqv` is
case-insensitive character equality. -/
def matchHere (eqv : Char → Char → Bool) (prev : Option Char) (as : List Atom) (s : Str) : Bool :=
  match as, s with
  | [], _ => true
  | .lit c :: as, x :: xs => eqv c x && matchHere eqv (some x) as xs
  | .lit _ :: _, [] => false
  | .any :: as, x :: xs => x != '\n' && matchHere eqv (some x) as xs
  | .any :: _, [] => false
  | .star :: as, [] => matchHere eqv prev as []
  | .star :: as, x :: xs =>
    matchHere eqv prev as (x :: xs) || (x != '\n' && matchHere eqv (some x) (.star :: as) xs)
  | .wb :: as, s => isBoundary prev s.head? && matchHere eqv prev as s
  termination_by (as.length, s.length)

/-- Unanchored search (`Regexp.MatchString`). -/
def searchFrom (eqv : Char → Char → Bool) (as : List Atom) (prev : Option Char) : Str → Bool
  | [] => matchHere eqv prev as []
  | x :: xs => matchHere eqv prev as (x :: xs) || searchFrom eqv as (some x) xs

end Aql
