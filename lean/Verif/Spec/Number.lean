import Mathlib.Data.Rat.Defs
import Mathlib.Algebra.Order.Field.Rat
import Verif.Model.Basic
/-!
Independent specification of decimal number text: its shape and the number it denotes.
-/

namespace Aql.Spec

/-- Only decimal digits. -/
def AllDigits (s : Str) : Prop := ∀ c ∈ s, '0' ≤ c ∧ c ≤ '9'

/-- The number a digit string denotes, positionally. -/
def digitsValue : Str → Nat
  | [] => 0
  | c :: s => (c.toNat - '0'.toNat) * 10 ^ s.length + digitsValue s

/-- Optional sign: is it a minus? -/
inductive SignText : Str → Bool → Prop
  | none : SignText [] false
  | plus : SignText ['+'] false
  | minus : SignText ['-'] true

/-- Optional decimal point followed by digits (possibly none): the digits. -/
inductive FracText : Str → Str → Prop
  | none : FracText [] []
  | point {ds} : AllDigits ds → FracText ('.' :: ds) ds

/-- Optional exponent. -/
inductive ExpText : Str → Int → Prop
  | none : ExpText [] 0
  | exp {c sg neg ds} : c = 'e' ∨ c = 'E' → SignText sg neg → ds ≠ [] → AllDigits ds →
      ExpText (c :: (sg ++ ds)) (if neg then -(digitsValue ds : Int) else digitsValue ds)

/-- `s` is decimal floating-point text denoting the number `q`. -/
def DecText (s : Str) (q : ℚ) : Prop :=
  ∃ sg neg ip ft fp et e, SignText sg neg ∧ AllDigits ip ∧ FracText ft fp ∧
    (ip ≠ [] ∨ fp ≠ []) ∧ ExpText et e ∧ s = sg ++ (ip ++ (ft ++ et)) ∧
    q = (if neg then -1 else 1) *
      ((digitsValue ip : ℚ) + (digitsValue fp : ℚ) / 10 ^ fp.length) * (10 : ℚ) ^ e

/-- `s` is decimal integer text denoting `n`. -/
def IntText (s : Str) (n : Int) : Prop :=
  ∃ sg neg ds, SignText sg neg ∧ ds ≠ [] ∧ AllDigits ds ∧ s = sg ++ ds ∧
    n = if neg then -(digitsValue ds : Int) else digitsValue ds

end Aql.Spec
