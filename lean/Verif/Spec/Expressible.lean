import Verif.Spec.Layout
/-!
The trees that queries can denote.
-/

namespace Aql.Spec

/-- The tree without positions is one that a query can denote: connectives over comparisons whose path
has no segment `*`, which have values exactly if the operator takes some, and whose values are denoted
by literals. -/
def Expressible (E : Env) : Node → Prop
  | .and l r => Expressible E l ∧ Expressible E r
  | .or l r => Expressible E l ∧ Expressible E r
  | .not n => Expressible E n
  | .subdoc _ _ => False
  | .expr op f vs p => p = noPosition ∧ ['*'] ∉ f ∧ (vs = [] ↔ op = .EXS ∨ op = .NUL) ∧
      ∀ v ∈ vs, ∃ t w, Lit E [] t w ∧ unplaced w = v

end Aql.Spec
