import Mathlib.Algebra.Group.Int.Even
import Verif.Model.Float64
/-!
Independent specification of binary64 rounding and order.
-/

namespace Aql.Spec

/-- `x` is a binary64 number if the exponent range were unbounded above: 53-bit significand, spacing
at least 2^-1074. -/
def Representable (x : ℚ) : Prop := ∃ m e : ℤ, |m| ≤ 2 ^ 53 ∧ -1074 ≤ e ∧ x = m * 2 ^ e

/-- `x` is a nearest representable number to `q`. -/
def IsNearest (q x : ℚ) : Prop :=
  Representable x ∧ ∀ y, Representable y → |x - q| ≤ |y - q|

/-- `x` can be written with an even significand. -/
def EvenSignificand (x : ℚ) : Prop :=
  ∃ m e : ℤ, |m| ≤ 2 ^ 53 ∧ Even m ∧ -1074 ≤ e ∧ x = m * 2 ^ e

/-- `x` is `q` rounded to nearest; of two nearest numbers the one with the even significand. -/
def RoundsTo (q x : ℚ) : Prop :=
  IsNearest q x ∧ ∀ y, IsNearest q y → y ≠ x → EvenSignificand x

/-- Position of a non-NaN value on the extended line, as a lexicographic pair
(-1 / 0 / 1 for -infinity / finite / +infinity, then the value). -/
def place : F64 → Option (ℤ × ℚ)
  | .nan => none
  | .inf true => some (-1, 0)
  | .inf false => some (1, 0)
  | .fin q => some (0, q)

/-- Strict order on the extended line. -/
def Before (a b : ℤ × ℚ) : Prop := a.1 < b.1 ∨ (a.1 = b.1 ∧ a.2 < b.2)

/-- `a < b` for binary64 values: both are numbers and a is before b. -/
def FLt (a b : F64) : Prop := ∃ x y, place a = some x ∧ place b = some y ∧ Before x y

/-- `a = b` for binary64 values. -/
def FEq (a b : F64) : Prop := ∃ x, place a = some x ∧ place b = some x

/-- `a ≤ b` for binary64 values. -/
def FLe (a b : F64) : Prop := FLt a b ∨ FEq a b

end Aql.Spec
