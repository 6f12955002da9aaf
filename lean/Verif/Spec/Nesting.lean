import Verif.Spec.Growth
/-!
Queries and documents put under a name, and with other names.
-/

namespace Aql.Spec

/-- The query with `f` applied to the path of every comparison. -/
def mapPaths (f : List Str → List Str) : Node → Node
  | .and l r => .and (mapPaths f l) (mapPaths f r)
  | .or l r => .or (mapPaths f l) (mapPaths f r)
  | .not e => .not (mapPaths f e)
  | .subdoc p e => .subdoc p (mapPaths f e)
  | .expr op p vs pos => .expr op (f p) vs pos

/-- The query about what is under the name `k`. -/
def under (k : Str) : Node → Node := mapPaths (k :: ·)

/-- The query about the names `ρ k` instead of `k`. -/
def renamed (ρ : Str → Str) : Node → Node := mapPaths (·.map ρ)

mutual

/-- The document with every member name spelled as `r` says. -/
def renameDoc (r : Str → Str) : Json → Json
  | .obj ms => .obj (renameMembers r ms)
  | .arr items => .arr (renameItems r items)
  | .null => .null
  | .bool b => .bool b
  | .num raw => .num raw
  | .str raw => .str raw

/-- The members of an object, renamed. -/
def renameMembers (r : Str → Str) : List (Str × Json) → List (Str × Json)
  | [] => []
  | (raw, v) :: ms => (r raw, renameDoc r v) :: renameMembers r ms

/-- The elements of an array, renamed. -/
def renameItems (r : Str → Str) : List Json → List Json
  | [] => []
  | v :: vs => renameDoc r v :: renameItems r vs

end

/-- Only comparisons other than `null`, joined by `OR`. -/
def Disjunctive : Node → Prop
  | .or l r => Disjunctive l ∧ Disjunctive r
  | .expr op _ _ _ => op ≠ .NUL
  | _ => False

/-- What a query says about the elements together, if `P` tells which comparison matches which element: every
comparison is met by some element, `null` by all elements that have the field (at least one). -/
def Among (P : Node → Json → Prop) (items : List Json) : Node → Prop
  | .and l r => Among P items l ∧ Among P items r
  | .or l r => Among P items l ∨ Among P items r
  | .not e => ¬ Among P items e
  | .subdoc _ _ => False
  | .expr op f vs pos =>
    if op = .NUL then (∃ o ∈ items, P (.expr .EXS f [] pos) o) ∧
      ∀ o ∈ items, P (.expr .EXS f [] pos) o → P (.expr op f vs pos) o
    else ∃ o ∈ items, P (.expr op f vs pos) o

end Aql.Spec
