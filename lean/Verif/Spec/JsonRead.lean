import Verif.Model.JsonOut
import Verif.Spec.Number
/-!
A reader of JSON texts (RFC 8259) by recursive descent, written without regard to how texts are
produced. Numbers are integers only, and escapes of surrogates are not read: a text accepted here means the
same to every JSON reader.
-/

namespace Aql.Spec

/-- White space of RFC 8259. -/
def isJsonWs (c : Char) : Bool := c = ' ' || c = '\t' || c = '\n' || c = '\r'

def skipWs (s : Str) : Str := s.dropWhile isJsonWs

/-- Decimal digit. -/
def isDecimal (c : Char) : Bool := '0' ≤ c && c ≤ '9'

/-- Value of a hexadecimal digit. -/
def hexValue (c : Char) : Option Nat :=
  if '0' ≤ c ∧ c ≤ '9' then some (c.toNat - 48)
  else if 'a' ≤ c ∧ c ≤ 'f' then some (c.toNat - 87)
  else if 'A' ≤ c ∧ c ≤ 'F' then some (c.toNat - 55)
  else none

/-- The character of a four-digit escape. -/
def fourHex (a b c d : Char) : Option Char :=
  match hexValue a, hexValue b, hexValue c, hexValue d with
  | some a, some b, some c, some d =>
    let n := ((a * 16 + b) * 16 + c) * 16 + d
    if 0xd800 ≤ n ∧ n ≤ 0xdfff then none else some (Char.ofNat n)
  | _, _, _, _ => none

/-- The character of a two-character escape. -/
def shortEscape (c : Char) : Option Char :=
  if c = '"' ∨ c = '\\' ∨ c = '/' then some c
  else if c = 'b' then some (Char.ofNat 8)
  else if c = 'f' then some (Char.ofNat 12)
  else if c = 'n' then some '\n'
  else if c = 'r' then some '\r'
  else if c = 't' then some '\t'
  else none

/-- The rest of a string after the opening quotation mark: its characters, and what follows. -/
def readString : Str → Option (Str × Str)
  | [] => none
  | '\\' :: 'u' :: a :: b :: c :: d :: r =>
    match fourHex a b c d with
    | none => none
    | some x => (readString r).map fun (s, t) => (x :: s, t)
  | '\\' :: e :: r =>
    match shortEscape e with
    | none => none
    | some x => (readString r).map fun (s, t) => (x :: s, t)
  | '"' :: r => some ([], r)
  | c :: r => if c.toNat < 32 ∨ c = '\\' then none else (readString r).map fun (s, t) => (c :: s, t)

/-- An integer without superfluous zeros. -/
def readInt (s : Str) : Option (Int × Str) :=
  let (neg, s) := match s with
    | '-' :: r => (true, r)
    | r => (false, r)
  let ds := s.takeWhile isDecimal
  if ds = [] ∨ (ds.head? = some '0' ∧ 1 < ds.length) then none
  else some (if neg then -(digitsValue ds : Int) else digitsValue ds, s.dropWhile isDecimal)

mutual
/-- A value at the beginning of the text, at most `n` levels of calls deep. -/
def readValue : Nat → Str → Option (JOut × Str)
  | 0, _ => none
  | n + 1, s =>
    match skipWs s with
    | '"' :: r => (readString r).map fun (s, t) => (.str s, t)
    | '[' :: r =>
      match skipWs r with
      | ']' :: t => some (.arr [], t)
      | r => (readItems n r).map fun (vs, t) => (.arr vs, t)
    | '{' :: r =>
      match skipWs r with
      | '}' :: t => some (.obj [], t)
      | r => (readMembers n r).map fun (ms, t) => (.obj ms, t)
    | 'n' :: 'u' :: 'l' :: 'l' :: t => some (.null, t)
    | r => (readInt r).map fun (i, t) => (.num i, t)
/-- One or more values separated by commas, and the closing bracket. -/
def readItems : Nat → Str → Option (List JOut × Str)
  | 0, _ => none
  | n + 1, s =>
    match readValue n s with
    | none => none
    | some (v, r) =>
      match skipWs r with
      | ',' :: t => (readItems n t).map fun (vs, t) => (v :: vs, t)
      | ']' :: t => some ([v], t)
      | _ => none
/-- One or more members separated by commas, and the closing brace. -/
def readMembers : Nat → Str → Option (List (Str × JOut) × Str)
  | 0, _ => none
  | n + 1, s =>
    match skipWs s with
    | '"' :: r =>
      match readString r with
      | none => none
      | some (k, r) =>
        match skipWs r with
        | ':' :: r =>
          match readValue n r with
          | none => none
          | some (v, r) =>
            match skipWs r with
            | ',' :: t => (readMembers n t).map fun (ms, t) => ((k, v) :: ms, t)
            | '}' :: t => some ([(k, v)], t)
            | _ => none
        | _ => none
    | _ => none
end

/-- The value of a whole text. -/
def readJson (s : Str) : Option JOut :=
  match readValue (s.length + 1) s with
  | some (v, r) => if skipWs r = [] then some v else none
  | none => none

end Aql.Spec
