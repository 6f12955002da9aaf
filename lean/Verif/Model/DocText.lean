import Verif.Model.Matcher
/-!
From the text of a document to `Doc`: what `json.Valid` (jsonmatcher.go:36) accepts, and the values that jsonparser
then finds in it (json_values.go:38, 90, 104). Both are libraries; this is their behaviour on texts in UTF-8, written
as one reader by recursive descent. Strings and numbers are kept as they are written.
-/

namespace Aql

/-- White space of JSON. -/
def docWs (c : Char) : Bool := c == ' ' || c == '\t' || c == '\n' || c == '\r'

/-- The text after white space. -/
def docSkip (s : Str) : Str := s.dropWhile docWs

/-- A hexadecimal digit. -/
def docHex (c : Char) : Bool := ('0' ≤ c && c ≤ '9') || ('a' ≤ c && c ≤ 'f') || ('A' ≤ c && c ≤ 'F')

/-- A string after its opening quotation mark: what is between the marks, still escaped, and the text after it
(encoding/json scanner.go, `stateInString`). -/
def docString : Str → Option (Str × Str)
  | [] => none
  | c :: r =>
    if c = '"' then some ([], r)
    else if c = '\\' then
      match r with
      | [] => none
      | e :: r' =>
        if e = 'u' then
          match r' with
          | h1 :: h2 :: h3 :: h4 :: r'' =>
            if docHex h1 && docHex h2 && docHex h3 && docHex h4 then
              (docString r'').map fun x => (c :: e :: h1 :: h2 :: h3 :: h4 :: x.1, x.2)
            else none
          | _ => none
        else if "\"\\/bfnrt".toList.contains e then (docString r').map fun x => (c :: e :: x.1, x.2)
        else none
    else if c.toNat < 32 then none
    else (docString r).map fun x => (c :: x.1, x.2)

/-- One or more digits. -/
def docDigits (s : Str) : Option (Str × Str) :=
  match s.takeWhile isDig with
  | [] => none
  | ds => some (ds, s.dropWhile isDig)

/-- The digits before the point: no zero in front of others. -/
def docWhole : Str → Option (Str × Str)
  | '0' :: r => some (['0'], r)
  | s => docDigits s

/-- The fraction, if there is one. -/
def docFraction : Str → Option (Str × Str)
  | '.' :: r => (docDigits r).map fun x => ('.' :: x.1, x.2)
  | s => some ([], s)

/-- The exponent, if there is one. -/
def docExponent : Str → Option (Str × Str)
  | [] => some ([], [])
  | c :: r =>
    if c = 'e' ∨ c = 'E' then
      match r with
      | '+' :: r' => (docDigits r').map fun x => (c :: '+' :: x.1, x.2)
      | '-' :: r' => (docDigits r').map fun x => (c :: '-' :: x.1, x.2)
      | r => (docDigits r).map fun x => (c :: x.1, x.2)
    else some ([], c :: r)

/-- A number without its sign. -/
def docUnsigned (s : Str) : Option (Str × Str) :=
  match docWhole s with
  | none => none
  | some (a, s1) =>
    match docFraction s1 with
    | none => none
    | some (b, s2) => (docExponent s2).map fun x => (a ++ b ++ x.1, x.2)

/-- A number (encoding/json scanner.go, `stateNeg` to `stateE0`). -/
def docNumber : Str → Option (Str × Str)
  | '-' :: r => (docUnsigned r).map fun x => ('-' :: x.1, x.2)
  | s => docUnsigned s

/-- The text after a word. -/
def docWord (w s : Str) : Option Str := if w.isPrefixOf s then some (s.drop w.length) else none

mutual

/-- A value at the beginning of a text, with at most `n` arrays and objects inside each other; the first number bounds
the recursion. -/
def docVal : Nat → Nat → Str → Option (Json × Str)
  | 0, _, _ => none
  | _ + 1, _, [] => none
  | f + 1, n, c :: r =>
    if c = '"' then (docString r).map fun x => (.str x.1, x.2)
    else if c = '[' then
      match n with
      | 0 => none
      | n + 1 =>
        match docSkip r with
        | ']' :: r' => some (.arr [], r')
        | r' => (docItems f n r').map fun x => (.arr x.1, x.2)
    else if c = '{' then
      match n with
      | 0 => none
      | n + 1 =>
        match docSkip r with
        | '}' :: r' => some (.obj [], r')
        | r' => (docMembers f n r').map fun x => (.obj x.1, x.2)
    else if c = 'n' then (docWord "ull".toList r).map fun t => (.null, t)
    else if c = 't' then (docWord "rue".toList r).map fun t => (.bool true, t)
    else if c = 'f' then (docWord "alse".toList r).map fun t => (.bool false, t)
    else (docNumber (c :: r)).map fun x => (.num x.1, x.2)

/-- The elements of an array and its closing bracket. -/
def docItems : Nat → Nat → Str → Option (List Json × Str)
  | 0, _, _ => none
  | f + 1, n, s =>
    match docVal f n s with
    | none => none
    | some (v, r) =>
      match docSkip r with
      | ']' :: r' => some ([v], r')
      | ',' :: r' => (docItems f n (docSkip r')).map fun x => (v :: x.1, x.2)
      | _ => none

/-- The members of an object and its closing brace. -/
def docMembers : Nat → Nat → Str → Option (List (Str × Json) × Str)
  | f + 1, n, '"' :: s =>
    match docString s with
    | none => none
    | some (raw, r) =>
      match docSkip r with
      | ':' :: r1 =>
        match docVal f n (docSkip r1) with
        | none => none
        | some (v, r2) =>
          match docSkip r2 with
          | '}' :: r' => some ([(raw, v)], r')
          | ',' :: r' => (docMembers f n (docSkip r')).map fun x => ((raw, v) :: x.1, x.2)
          | _ => none
      | _ => none
  | _, _, _ => none

end

/-- encoding/json scanner.go, `maxNestingDepth`: deeper texts are not valid (Go 1.15+). -/
def maxNesting : Nat := 10000

/-- jsonmatcher.go:36: the document that a text encodes. -/
def docOfText (s : Str) : Doc :=
  match docVal (2 * s.length + 2) maxNesting (docSkip s) with
  | some (v, r) => if docSkip r = [] then .valid v else .invalid
  | none => .invalid

end Aql
