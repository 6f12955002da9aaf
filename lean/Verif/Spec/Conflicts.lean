import Verif.Spec.Satisfiable
import Verif.Spec.Walk
/-!
When comparisons exclude each other.
-/

namespace Aql.Spec

variable (E : Env)

/-- The comparison holds of one scalar. -/
def Meets (op : Op) (vs : List Val) (s : Json) : Prop :=
  match op with
  | .EQ | .SIM => ∃ v ∈ vs, EqHolds E v s
  | .LT | .LTE | .GT | .GTE => ∃ v ∈ vs, CmpHolds E op v s
  | .BET => ∃ a b, vs = [a, b] ∧ BetHolds E a b s
  | .EXS | .NUL => False

/-- Nothing speaks against the comparisons `cs` holding or failing as `holds` says, taken field by field. -/
structure Consistent (cs : List Node) (holds : Node → Prop) : Prop where
  /-- A comparison of values that is to hold has a scalar that no comparison of the same field that is to fail holds of. -/
  value : ∀ op f vs pos, .expr op f vs pos ∈ cs → holds (.expr op f vs pos) → op ≠ .EXS → op ≠ .NUL →
    ∃ s, IsScalar s ∧ Meets E op vs s ∧
      ∀ op' vs' pos', .expr op' f vs' pos' ∈ cs → Meets E op' vs' s → holds (.expr op' f vs' pos')
  /-- What is above a field that a comparison holds of exists. -/
  above : ∀ op f vs pos, .expr op f vs pos ∈ cs → holds (.expr op f vs pos) →
    ∀ f' vs' pos', .expr .EXS f' vs' pos' ∈ cs → f' <+: f → holds (.expr .EXS f' vs' pos')
  /-- Of a field that is null, and what is below it, nothing holds but that the field is null and exists. -/
  null : ∀ f vs pos, .expr .NUL f vs pos ∈ cs → holds (.expr .NUL f vs pos) →
    ∀ op' f' vs' pos', .expr op' f' vs' pos' ∈ cs → f <+: f' →
      (holds (.expr op' f' vs' pos') ↔ f' = f ∧ (op' = .NUL ∨ op' = .EXS))

/-- Two queries are about different things: no field is compared by both, and neither asks whether a field is there, or
null, that the other looks below. -/
def Apart (n n' : Node) : Prop :=
  ∀ op f vs pos op' f' vs' pos', .expr op f vs pos ∈ comparisons n → .expr op' f' vs' pos' ∈ comparisons n' →
    f ≠ f' ∧ (op = .EXS ∨ op = .NUL → ¬ f <+: f') ∧ (op' = .EXS ∨ op' = .NUL → ¬ f' <+: f)

end Aql.Spec
