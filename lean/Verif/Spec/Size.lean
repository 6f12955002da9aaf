import Verif.Model.Ast
/-! The size of a query tree, for bounds on the cost of matching. -/

namespace Aql.Spec

/-- Connectives, comparisons, path segments and literals. -/
def querySize : Node → Nat
  | .and l r => querySize l + querySize r + 1
  | .or l r => querySize l + querySize r + 1
  | .not e => querySize e + 1
  | .subdoc _ e => querySize e + 1
  | .expr _ f vs _ => f.length + vs.length + 2

end Aql.Spec
