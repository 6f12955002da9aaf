import Verif.Spec.Layout
/-!
Independent specification of queries in disjunctive normal form, as sequences of tokens.
-/

namespace Aql.Spec

/-- A comparison with one literal, with none, or a range. -/
def Cst.IsSimple : Cst → Prop
  | .noArgs .. => True
  | .compare _ _ _ op lits => lits.length = 1 ∨ op = .BET
  | _ => False

/-- A simple comparison, possibly negated. -/
def Cst.IsLiteral : Cst → Prop
  | .not _ c => c.IsSimple
  | c => c.IsSimple

/-- Literals joined by `AND`, without parentheses. -/
def Cst.IsClause : Cst → Prop
  | .and l r => l.IsLiteral ∧ r.IsClause
  | c => c.IsLiteral

/-- Clauses joined by `OR`, without parentheses. -/
def Cst.IsNormal : Cst → Prop
  | .or l r => l.IsClause ∧ r.IsNormal
  | c => c.IsClause

/-- The names, operators and literals, one after the other. -/
def Cst.words : Cst → List Str
  | .noArgs p _ o _ => [p, o]
  | .compare p _ o _ lits => p :: o :: lits.map (·.1)
  | .group c => c.words
  | .not _ c => c.words
  | .and l r => l.words ++ r.words
  | .or l r => l.words ++ r.words

/-- No range occurs. -/
def Cst.NoRange : Cst → Prop
  | .noArgs .. => True
  | .compare _ _ _ op _ => op ≠ .BET
  | .group c => c.NoRange
  | .not _ c => c.NoRange
  | .and l r => l.NoRange ∧ r.NoRange
  | .or l r => l.NoRange ∧ r.NoRange

end Aql.Spec
