import Verif.Spec.Float
import Verif.Spec.Number
import Mathlib.Algebra.Group.Int.Even
/-!
How a number should be printed: the shortest decimal that is read back as the number, without an exponent.
-/

namespace Aql.Spec

/-- A finite binary64 number. -/
def IsDouble (x : ℚ) : Prop := Representable x ∧ |x| < 2 ^ (1024 : ℤ)

/-- `d * 10^e` is the shortest decimal for `x`: it is read as `x`; no decimal with a coarser last place is; of those
with the same last place it is the closest to `x`, and the even one if there are two. -/
structure ShortestDecimal (x : ℚ) (d e : ℤ) : Prop where
  /-- it is read as `x` -/
  reads : RoundsTo (d * 10 ^ e) x
  /-- no decimal with a coarser last place is read as `x` -/
  coarsest : ∀ d' e' : ℤ, RoundsTo (d' * 10 ^ e') x → e' ≤ e
  /-- no other one with this last place is closer -/
  closest : ∀ d' : ℤ, RoundsTo (d' * 10 ^ e) x → |(d : ℚ) * 10 ^ e - x| ≤ |(d' : ℚ) * 10 ^ e - x|
  /-- of two that are equally close, the even one -/
  tie : ∀ d' : ℤ, d' ≠ d → RoundsTo (d' * 10 ^ e) x → |(d : ℚ) * 10 ^ e - x| = |(d' : ℚ) * 10 ^ e - x| → Even d

/-- Decimal text for the number `q ≠ 0`: a minus sign if it is negative, the digits before the point without leading
zeros (or a single one), and, if there are any, a point and digits that do not end in a zero. No exponent, no plus. -/
def PlainText (s : Str) (q : ℚ) : Prop :=
  ∃ m a r b, m = (if q < 0 then ['-'] else []) ∧ s = m ++ (a ++ r) ∧
    AllDigits a ∧ a ≠ [] ∧ (a = ['0'] ∨ a.head? ≠ some '0') ∧
    AllDigits b ∧ b.getLast? ≠ some '0' ∧ (r = [] ∧ b = [] ∨ b ≠ [] ∧ r = '.' :: b) ∧
    |q| = (digitsValue a : ℚ) + (digitsValue b : ℚ) / 10 ^ b.length

/-- `s` is what should be printed for `x` (the sign of a zero is in `z`). -/
inductive NumberText : Bool → F64 → Str → Prop
  | nan {z} : NumberText z .nan "NaN".toList
  | posInf {z} : NumberText z (.inf false) "+Inf".toList
  | negInf {z} : NumberText z (.inf true) "-Inf".toList
  | zero : NumberText false (.fin 0) "0".toList
  | negZero : NumberText true (.fin 0) "-0".toList
  | number {z x d e s} : x ≠ 0 → ShortestDecimal x d e → PlainText s (d * 10 ^ e) → NumberText z (.fin x) s

end Aql.Spec
