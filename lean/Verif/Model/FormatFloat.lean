import Verif.Model.Float64
/-!
Printing of numbers: `strconv.FormatFloat(f, 'f', -1, 64)`, used at ast.go:243 and json_values.go:129. This is the
shortest decimal that is read back as the same number, and of those the closest one.

Simplification: the Go library computes the digits with 128-bit arithmetic from tables (ryuFtoaShortest); here they are
computed from exact rationals. The library is not part of the repository; what is modelled is its documented result.
-/

namespace Aql

/-- The number of steps of size `10^e` to print for `x > 0`, if some number of steps is read back as `x`: the one
closest to `x` (of two the even one), if both of the neighbours of `x` are read back as `x`. -/
def candidate (x : ℚ) (e : ℤ) : Option ℕ :=
  let t := x / 10 ^ e
  let d := ⌊t⌋.toNat
  let lo := decide (toF64 ((d : ℚ) * 10 ^ e) = .fin x)
  let hi := decide (toF64 (((d + 1 : ℕ) : ℚ) * 10 ^ e) = .fin x)
  if lo && hi then some (rne t).toNat
  else if lo then some d
  else if hi then some (d + 1)
  else none

/-- The first of the steps `10^e`, `10^(e-1)`, … for which there is something to print. -/
def shortest (x : ℚ) : ℕ → ℤ → ℕ × ℤ
  | 0, e => (0, e)
  | n + 1, e =>
    match candidate x e with
    | some d => (d, e)
    | none => shortest x n (e - 1)

/-- The last `k` decimal digits of `n`. -/
def lastDigits : ℕ → ℕ → Str
  | 0, _ => []
  | k + 1, n => lastDigits k (n / 10) ++ [Nat.digitChar (n % 10)]

/-- The number `d * 10^e` without an exponent. -/
def plainDecimal (d : ℕ) : ℤ → Str
  | .ofNat k => Nat.toDigits 10 (d * 10 ^ k)
  | .negSucc k => Nat.toDigits 10 (d / 10 ^ (k + 1)) ++ '.' :: lastDigits (k + 1) (d % 10 ^ (k + 1))

/-- Shortest decimal of a positive number. 17 digits are enough for every binary64 number, so the search does not
fail. -/
def shortestText (x : ℚ) : Str :=
  let r := shortest x 18 (Int.log 10 x + 1)
  plainDecimal r.1 r.2

/-- `strconv.FormatFloat(f, 'f', -1, 64)` (ast.go:243, json_values.go:129). The first argument says whether a zero is the
negative one. -/
def formatFloat (z : Bool) : F64 → Str
  | .nan => "NaN".toList
  | .inf true => "-Inf".toList
  | .inf false => "+Inf".toList
  | .fin x =>
    if x = 0 then if z then "-0".toList else "0".toList
    else if x < 0 then '-' :: shortestText (-x)
    else shortestText x

end Aql
