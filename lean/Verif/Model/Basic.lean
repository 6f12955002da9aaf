/-!
Shared vocabulary of the model.

Go strings are modelled as lists of Unicode scalar values (`Str`). Texts that are not valid UTF-8
only reach the query parser, which has its own input type (`Verif.Model.Peg`).
-/

namespace Aql

/-- Go `string` (valid UTF-8). -/
abbrev Str := List Char

/-- parser/ast/ast.go:14-26, `type Op string` and its constants. -/
inductive Op
  | EQ | LT | LTE | GT | GTE | BET | SIM | EXS | NUL
  deriving DecidableEq, Repr

/-- parser/ast/ast.go:17-25, the text of each operator constant. -/
def Op.text : Op → Str
  | .EQ => "==".toList
  | .LT => "<".toList
  | .LTE => "<=".toList
  | .GT => ">".toList
  | .GTE => ">=".toList
  | .BET => "><".toList
  | .SIM => "~".toList
  | .EXS => "exists".toList
  | .NUL => "null".toList

/-- parser/ast/ast.go:134-145, `type Pos`. -/
structure Pos where
  line : Int
  col : Int
  offset : Int
  len : Int
  deriving DecidableEq, Repr

/-- parser/ast/ast.go:165-174, `NoPosition`. -/
def noPosition : Pos := ⟨0, 0, -1, 0⟩

/-- parser/ast/ast.go:147-157, `Pos.Start`. -/
def Pos.start (p : Pos) : Pos :=
  if p.line = 0 ∨ p.col = 0 ∨ p.offset = -1 then p else ⟨p.line, p.col, p.offset, 1⟩

/-- parser/ast/ast.go:159-161, `Pos.IsZero`. -/
def Pos.isZero (p : Pos) : Bool := p == noPosition

/-- parser/ast/ast.go:176-186, `type ValType`. -/
inductive ValType
  | int | float | string | bool | regex | net | time
  deriving DecidableEq, Repr

/-- A Go run-time panic. The cases name the origin. -/
inductive GoPanic
  /-- index or slice bounds out of range -/
  | outOfRange
  /-- one of the repository's own "backstop" panics -/
  | backstop
  /-- write to a nil map -/
  | nilMap
  /-- nil pointer dereference -/
  | nilDeref
  /-- regexp.MustCompile failure -/
  | mustCompile
  /-- strings.Repeat with a negative count -/
  | negativeRepeat
  /-- failed type assertion -/
  | typeAssertion
  deriving DecidableEq, Repr

/-- A Go computation that may panic. -/
abbrev GoM (α : Type) := Except GoPanic α

/-- `for _, v := range xs { if p(v) { return true } }; return false` where `p` may panic. -/
def anyGo {α : Type} (p : α → GoM Bool) : List α → GoM Bool
  | [] => .ok false
  | x :: xs =>
    match p x with
    | .error e => .error e
    | .ok true => .ok true
    | .ok false => anyGo p xs

/-- A loop that appends the results of `f` in order, where `f` may panic. -/
def flatMapGo {α β : Type} (f : α → GoM (List β)) : List α → GoM (List β)
  | [] => .ok []
  | x :: xs =>
    match f x with
    | .error e => .error e
    | .ok ys =>
      match flatMapGo f xs with
      | .error e => .error e
      | .ok zs => .ok (ys ++ zs)

/-- jsonmatcher/str_matchers.go:94-101, `isASCII` (every byte below utf8.RuneSelf, i.e. every
character below U+0080). -/
def isASCII (s : Str) : Bool := s.all (fun c => c.val < 128)

/-- Decimal digit test used by grammar classes `[0-9]`. -/
def isDig (c : Char) : Bool := '0' ≤ c && c ≤ '9'

/-- Numeric value of a decimal digit character. -/
def digVal (c : Char) : Nat := c.toNat - '0'.toNat

/-- Value of a digit string, most significant digit first (strconv's digit loop). -/
def natOfDigits (s : Str) : Nat := s.foldl (fun a c => a * 10 + digVal c) 0

end Aql
