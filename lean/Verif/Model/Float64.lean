import Mathlib.Data.Int.Log
import Mathlib.Data.Rat.Floor
import Verif.Model.Basic
/-!
IEEE binary64 values as used by Go's `float64`, with round-to-nearest-even.

Simplification: the two zeros are one value here, which all comparisons treat alike. Only printing tells them
apart, and there the sign is kept beside the value (`isNegZero`). NaN payloads are not modelled.
-/

namespace Aql

/-- A Go `float64`: finite values are exact rationals. -/
inductive F64
  | nan
  | inf (neg : Bool)
  | fin (q : ℚ)
  deriving DecidableEq

/-- Round to the nearest integer, ties to even (IEEE 754 roundTiesToEven). -/
def rne (q : ℚ) : ℤ :=
  let f := ⌊q⌋
  let r := q - f
  if r < 1 / 2 then f
  else if r > 1 / 2 then f + 1
  else if f % 2 = 0 then f else f + 1

/-- Exponent of the spacing of binary64 numbers around `q` (53-bit significand, smallest
subnormal 2^-1074). -/
def quantum (q : ℚ) : ℤ := max (Int.log 2 |q| - 52) (-1074)

/-- Nearest multiple of the spacing. -/
def roundQ (q : ℚ) : ℚ := rne (q / 2 ^ quantum q) * 2 ^ quantum q

/-- Correctly rounded conversion of an exact rational to binary64 (overflow gives infinity).
Used for `float64(int64)` conversions (expr_eq.go:37, expr_numeric.go:22, expr_between.go:23,29,
validators.go:148,154) and for decimal text (strconv.ParseFloat). -/
def toF64 (q : ℚ) : F64 :=
  let v := roundQ q
  if (2 : ℚ) ^ (1024 : ℤ) ≤ |v| then .inf (decide (q < 0)) else .fin v

/-- Go `a < b` on float64 (false if either is NaN). -/
def F64.lt : F64 → F64 → Bool
  | .nan, _ => false
  | _, .nan => false
  | .inf true, .inf true => false
  | .inf true, _ => true
  | _, .inf true => false
  | .inf false, _ => false
  | .fin _, .inf false => true
  | .fin a, .fin b => decide (a < b)

/-- Go `a == b` on float64. -/
def F64.eq : F64 → F64 → Bool
  | .nan, _ => false
  | _, .nan => false
  | .inf a, .inf b => a == b
  | .fin a, .fin b => decide (a = b)
  | _, _ => false

/-- Go `a <= b` on float64. -/
def F64.le (a b : F64) : Bool := F64.lt a b || F64.eq a b

/-! ### Decimal text -/

/-- Split off a leading run of digits. -/
def spanDigits (s : Str) : Str × Str := (s.takeWhile isDig, s.dropWhile isDig)

/-- Optional sign as accepted by strconv.ParseFloat / ParseInt: (negative?, rest). -/
def takeSign : Str → Bool × Str
  | '+' :: s => (false, s)
  | '-' :: s => (true, s)
  | s => (false, s)

/-- Exponent part `[eE][+-]?digits` or nothing; `none` if malformed. -/
def decimalExp : Str → Option ℤ
  | [] => some 0
  | c :: s =>
    if c = 'e' ∨ c = 'E' then
      let (neg, t) := takeSign s
      if t ≠ [] ∧ t.all isDig then
        some (if neg then -(natOfDigits t : ℤ) else (natOfDigits t : ℤ))
      else none
    else none

/-- Optional decimal point with its digits: (digits, rest). -/
def fracPart : Str → Str × Str
  | '.' :: u => spanDigits u
  | t => ([], t)

/-- Exact value of decimal floating-point text `[+-]?(digits[.digits*]|.digits)(exp)?`, as accepted
by strconv.ParseFloat; `none` for every other text. -/
def decimalValue (s : Str) : Option ℚ :=
  let (neg, t) := takeSign s
  let (ip, t1) := spanDigits t
  let (fp, t2) := fracPart t1
  if ip = [] ∧ fp = [] then none
  else
    match decimalExp t2 with
    | none => none
    | some e =>
      let m : ℚ := (natOfDigits (ip ++ fp) : ℚ) * 10 ^ (e - fp.length)
      some (if neg then -m else m)

end Aql
