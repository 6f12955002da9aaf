import Verif.Model.Visitors
/-!
Independent specification of a visitor walk: the nodes in depth-first left-to-right preorder, each
with the number of its descendants, consumed from left to right by a machine without recursion into
the tree. (Only the types of visitors, their results and states are shared with the model.)
-/

namespace Aql.Spec

/-- Preorder listing; each node comes with the number of nodes below it. -/
def preorder : Node → List (Node × Nat)
  | .and l r => (.and l r, (preorder l).length + (preorder r).length) :: (preorder l ++ preorder r)
  | .or l r => (.or l r, (preorder l).length + (preorder r).length) :: (preorder l ++ preorder r)
  | .not e => (.not e, (preorder e).length) :: preorder e
  | .subdoc f e => (.subdoc f e, (preorder e).length) :: preorder e
  | .expr op f vs p => [(.expr op f vs p, 0)]

/-- Consume the listing: `Skip` drops the descendants, `SkipAll` ends without error, another error
ends with that error. `k` is the number of entries still to be dropped. -/
def runList {σ : Type} (visit : σ → Node → GoM (σ × Option VErr)) :
    Nat → σ → List (Node × Nat) → GoM (σ × Option VErr)
  | _, s, [] => .ok (s, none)
  | k + 1, s, _ :: rest => runList visit k s rest
  | 0, s, (n, below) :: rest =>
    match visit s n with
    | .error p => .error p
    | .ok (s, none) => runList visit 0 s rest
    | .ok (s, some .skip) => runList visit below s rest
    | .ok (s, some .skipAll) => .ok (s, none)
    | .ok (s, some e) => .ok (s, some e)

/-- The comparisons of a query from left to right. -/
def comparisons : Node → List Node
  | .and l r => comparisons l ++ comparisons r
  | .or l r => comparisons l ++ comparisons r
  | .not e => comparisons e
  | .subdoc _ e => comparisons e
  | .expr op f vs p => [.expr op f vs p]

end Aql.Spec
