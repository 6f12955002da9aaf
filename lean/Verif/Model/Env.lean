import Verif.Model.FormatFloat
import Verif.Model.Json
import Verif.Model.Regex
import Verif.Model.Time
/-!
The environment: behaviour of code outside the repository that is not defined here. Every theorem
quantifies over all environments, so nothing is assumed about these functions unless a theorem
says so in a hypothesis.
-/

namespace Aql

/-- Shape of a parsed regular expression (regexp/syntax.Regexp), as far as query_messages.go looks
at it: an operation and sub-expressions. -/
inductive ReSyn
  | mk (op : Nat) (subs : List ReSyn)

/-- regexp/syntax operation codes that query_messages.go tests for (values are arbitrary labels). -/
def opLiteral : Nat := 3
/-- `syntax.OpAnyCharNotNL`, query_messages.go:86. -/
def opAnyCharNotNL : Nat := 5
/-- `syntax.OpAnyChar`, query_messages.go:86. -/
def opAnyChar : Nat := 6
/-- `syntax.OpCapture`, query_messages.go:39. -/
def opCapture : Nat := 13
/-- `syntax.OpStar`, query_messages.go:69, 85. -/
def opStar : Nat := 14
/-- `syntax.OpQuest`, query_messages.go:69. -/
def opQuest : Nat := 16
/-- `syntax.OpAlternate`, query_messages.go:43. -/
def opAlternate : Nat := 19

/-- The behaviour of libraries that is not modelled; every theorem holds for every environment. -/
structure Env where
  /-- jsonparser.Unescape / ParseString on the raw bytes of a JSON string; `none` is an error -/
  unescape : Str → Option Str
  /-- strconv.ParseFloat on text that is not plain decimal (hex, inf, nan, underscores, junk); a finite value is the
  exact one, before rounding -/
  parseFloatOther : Str → Option F64
  /-- does regexp.Compile accept this pattern (outside the fragment of `parseFrag`) -/
  reOk : Str → Bool
  /-- Regexp.MatchString for patterns outside the fragment -/
  reMatch : Str → Str → Bool
  /-- regexp/syntax.Parse(pattern, Perl) -/
  reSyntax : Str → Option ReSyn
  /-- String() of the first sub-expression of the parsed pattern -/
  reSubText : Str → Str
  /-- x/text/search Loose pattern found in text -/
  looseIndex : Str → Str → Bool
  /-- dateparse.ParseAny; the instant in nanoseconds, unbounded -/
  dateparse : Str → Option Int
  /-- unicode.ToLower outside ASCII -/
  lower : Char → Char
  /-- representative of the simple-folding class outside ASCII -/
  fold : Char → Char
  /-- unicode.IsPrint outside ASCII -/
  isPrint : Char → Bool
  /-- jsonparser.Get on a root array with an empty key or a key starting with '[' -/
  rootArrayGet : List Json → Str → GetRes
  /-- text of the error of regexp.Compile -/
  reErr : Str → Str := fun _ => []
  /-- text of the error of netip.ParsePrefix without its `ParsePrefix(…): ` and `ParseAddr(…): ` (ast.go:387-389) -/
  netErr : Str → Str := fun _ => []
  /-- message of the error of time.Parse without a leading `: ` (ast.go:437-442) -/
  timeErr : Str → Str := fun _ => []

variable (E : Env)

/-- unicode.ToLower. -/
def goLower (c : Char) : Char := if c.val < 128 then asciiLower c else E.lower c

/-- strings.ToLower. -/
def toLower (s : Str) : Str := s.map (goLower E)

/-- Representative of the folding class of a character under `(?i)`: ASCII letters fold with their
other case, U+212A folds with k, U+017F with s. -/
def foldKey (c : Char) : Char :=
  if c.val < 128 then asciiLower c
  else if c.val = 0x212A then 'k'
  else if c.val = 0x17F then 's'
  else E.fold c

/-- Case-insensitive character equality under `(?i)`. -/
def foldEq (a b : Char) : Bool := foldKey E a == foldKey E b

/-- regexp.Compile succeeds. -/
def reCompiles (src : Str) : Bool := (parseFrag src).isSome || E.reOk src

/-- Regexp.MatchString for the regexp compiled from `src`. -/
def reMatchString (src text : Str) : Bool :=
  match parseFrag src with
  | some as => searchFrom (foldEq E) as none text
  | none => E.reMatch src text

/-- strconv.ParseFloat(s, 64): error (none) on bad syntax or overflow. -/
def parseFloat (s : Str) : Option F64 :=
  match decimalValue s with
  | some q =>
    match toF64 q with
    | .inf _ => none
    | f => some f
  | none =>
    match E.parseFloatOther s with
    | some (.fin q) =>
      match toF64 q with
      | .inf _ => none
      | f => some f
    | r => r

/-- Is the value of a numeral negative zero? strconv.ParseFloat keeps the sign of a zero, also of one that is the
result of rounding. -/
def isNegZero (s : Str) (f : F64) : Bool := f == .fin 0 && s.head? == some '-'

/-- Lower-case hexadecimal digit. -/
def hexDigit (n : Nat) : Char := if n < 10 then Char.ofNat (48 + n) else Char.ofNat (87 + n)

/-- `n` hexadecimal digits of `v`, most significant first. -/
def hexDigits : Nat → Nat → Str
  | 0, _ => []
  | n + 1, v => hexDigits n (v / 16) ++ [hexDigit (v % 16)]

/-- strconv.Quote of one character. -/
def quoteChar (c : Char) : Str :=
  if c = '"' then ['\\', '"']
  else if c = '\\' then ['\\', '\\']
  else if c.val = 7 then ['\\', 'a']
  else if c.val = 8 then ['\\', 'b']
  else if c.val = 12 then ['\\', 'f']
  else if c.val = 10 then ['\\', 'n']
  else if c.val = 13 then ['\\', 'r']
  else if c.val = 9 then ['\\', 't']
  else if c.val = 11 then ['\\', 'v']
  else if c.val < 32 ∨ c.val = 127 then '\\' :: 'x' :: hexDigits 2 c.toNat
  else if c.val < 128 then [c]
  else if E.isPrint c then [c]
  else if c.val < 0x10000 then '\\' :: 'u' :: hexDigits 4 c.toNat
  else '\\' :: 'U' :: hexDigits 8 c.toNat

/-- strconv.Quote. -/
def quote (s : Str) : Str := '"' :: (s.flatMap (quoteChar E) ++ ['"'])

/-- A concrete environment, used for the tests and the examples. -/
def testEnv : Env where
  unescape s := if '\\' ∈ s then none else some s
  parseFloatOther s := if s = "NaN".toList then some .nan else if s = "inf".toList then some (.inf false) else none
  reOk _ := true
  reMatch _ _ := false
  reSyntax _ := some (.mk opLiteral [])
  reSubText s := s
  looseIndex _ _ := false
  dateparse s := (parseDay s).or (parseRFC3339 s)
  lower c := c
  fold c := c
  isPrint _ := true
  rootArrayGet _ _ := .ok none

end Aql
