import Verif.Spec.Query
/-!
Which piece of a rejected comparison is to blame (README, "Validation"): the first thing that breaks a
rule, in the order operand types, number of operands, repeated or contradicting values, order of the
bounds.
-/

namespace Aql.Spec

variable (E : Env)

/-- No value is printed like another, and `true` and `false` are not both listed under equality. -/
def ListOk (op : Op) (vs : List Val) : Prop :=
  (vs.map (Val.toStr E)).Nodup ∧
  (op = .EQ → ¬ ("true".toList ∈ vs.map (Val.toStr E) ∧ "false".toList ∈ vs.map (Val.toStr E)))

/-- `p` is the position to blame for the rejection of a comparison at `pos` with the given values. -/
inductive Blames (op : Op) (vs : List Val) (pos : Pos) : Pos → Prop
  /-- the first operand of a type that the operator does not accept -/
  | operand {l v r} : op ≠ .EXS → op ≠ .NUL → vs = l ++ v :: r → (∀ x ∈ l, OperandOk op x) →
      ¬ OperandOk op v → Blames op vs pos v.pos
  /-- the whole comparison, for a wrong number of operands -/
  | arity : (∀ v ∈ vs, OperandOk op v) ∨ op = .EXS ∨ op = .NUL → ¬ ArityOk op vs.length →
      Blames op vs pos pos
  /-- the first value that repeats or contradicts an earlier one -/
  | value {l v r} : (∀ v ∈ vs, OperandOk op v) → ArityOk op vs.length → vs = l ++ v :: r →
      ListOk E op l → ¬ ListOk E op (l ++ [v]) → Blames op vs pos v.pos
  /-- the second bound of a between whose bounds are out of order -/
  | order {a b} : (∀ v ∈ vs, OperandOk op v) → ListOk E op vs → op = .BET → vs = [a, b] →
      ¬ BetweenOk a b → Blames op vs pos b.pos

end Aql.Spec
