import Verif.Model.Ast
/-!
The height of a tree, and what makes the parser call itself.
-/

namespace Aql.Spec

/-- The number of nodes above the lowest comparison. -/
def treeHeight : Node → Nat
  | .and l r => max (treeHeight l) (treeHeight r) + 1
  | .or l r => max (treeHeight l) (treeHeight r) + 1
  | .not n => treeHeight n + 1
  | .subdoc _ n => treeHeight n + 1
  | .expr .. => 0

/-- How often the word occurs in the text. -/
def occurs (w : Str) : Str → Nat
  | [] => 0
  | c :: s => (if w <+: c :: s then 1 else 0) + occurs w s

/-- The signs after which the parser calls itself, wherever they occur: seventeen for every opening
parenthesis, three for every negation and five for every conjunction. -/
def turns (s : Str) : Nat :=
  17 * occurs "(".toList s + 3 * (occurs "!".toList s + occurs "NOT".toList s) +
    5 * (occurs "OR".toList s + occurs "AND".toList s)

end Aql.Spec
