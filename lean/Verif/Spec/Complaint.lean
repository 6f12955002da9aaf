import Verif.Spec.Blame
import Verif.Model.Validators
/-!
What is said about a comparison that breaks the typing rules, and where.
-/

namespace Aql.Spec

variable (E : Env)

/-- How an operator is called in messages. -/
def opSign : Op → Str
  | .EQ => ['=', '=']
  | .LT => ['<']
  | .LTE => ['<', '=']
  | .GT => ['>']
  | .GTE => ['>', '=']
  | .BET => ['>', '<']
  | .SIM => ['~']
  | .EXS => "exists".toList
  | .NUL => "null".toList

/-- A sentence about an operator. -/
def aboutOp (op : Op) (s : Str) : Str := '[' :: opSign op ++ "] operation ".toList ++ s

/-- Number `i` of `n` values. -/
def valueNo (i n : Nat) : Str := " (value ".toList ++ Nat.toDigits 10 i ++ '/' :: Nat.toDigits 10 n ++ [')']

/-- `e` is what is said about the first thing wrong with a comparison, in the order operand types, number of
operands, repeated or contradicting values, order of the bounds. -/
inductive Complains (op : Op) (vs : List Val) (pos : Pos) : PErr → Prop
  /-- an operand of an ordering that is not a number (or datetime), the first one -/
  | numeric {l v r} : op ∈ [.LT, .LTE, .GT, .GTE, .BET] → vs = l ++ v :: r → (∀ x ∈ l, OperandOk op x) →
      ¬ OperandOk op v → Complains op vs pos ⟨v.pos, aboutOp op "needs numeric arguments".toList⟩
  /-- an operand of `~` that is not a string or boolean (or regular expression), the first one -/
  | textual {l v r} : op = .SIM → vs = l ++ v :: r → (∀ x ∈ l, OperandOk op x) →
      ¬ OperandOk op v → Complains op vs pos ⟨v.pos, aboutOp op "needs string, or boolean arguments".toList⟩
  /-- an operand where none is allowed -/
  | noOperand : op = .EXS ∨ op = .NUL → vs ≠ [] →
      Complains op vs pos ⟨pos, aboutOp op "does not accept arguments".toList⟩
  /-- not exactly one operand -/
  | oneOperand : op ∈ [.LT, .LTE, .GT, .GTE] → (∀ v ∈ vs, OperandOk op v) → vs.length ≠ 1 →
      Complains op vs pos ⟨pos, aboutOp op "requires exactly 1 arguments".toList⟩
  /-- not exactly two operands -/
  | twoOperands : op = .BET → (∀ v ∈ vs, OperandOk op v) → vs.length ≠ 2 →
      Complains op vs pos ⟨pos, aboutOp op "requires exactly 2 arguments".toList⟩
  /-- no operand -/
  | someOperand : op = .EQ ∨ op = .SIM → vs = [] →
      Complains op vs pos ⟨pos, aboutOp op "requires at least 1 arguments".toList⟩
  /-- a value that is printed like an earlier one, the first value that is wrong -/
  | duplicate {l v r w} : (∀ v ∈ vs, OperandOk op v) → ArityOk op vs.length → vs = l ++ v :: r →
      ListOk E op l → w ∈ l → w.toStr E = v.toStr E →
      Complains op vs pos ⟨v.pos, "duplicate argument [".toList ++ v.toStr E ++ "]".toList ++
        valueNo (l.length + 1) vs.length⟩
  /-- `true` after `false`, or the other way round; the first value that is wrong -/
  | conflict {l v r w} : op = .EQ → vs = l ++ v :: r → ListOk E op l → v.toStr E ∉ l.map (Val.toStr E) → w ∈ l →
      (v.toStr E = "true".toList ∧ w.toStr E = "false".toList) ∨
        (v.toStr E = "false".toList ∧ w.toStr E = "true".toList) →
      Complains op vs pos ⟨v.pos, "conflicting boolean value [".toList ++ v.toStr E ++ "]".toList ++
        valueNo (l.length + 1) vs.length⟩
  /-- a lower bound that is a datetime and an upper bound that is none -/
  | datetime {a b} : op = .BET → vs = [a, b] → ListOk E op vs → typeOf a = .time → typeOf b ≠ .time → OperandOk op b →
      Complains op vs pos ⟨b.pos, "second argument must also be a datetime value".toList⟩
  /-- bounds that are not in order -/
  | order {a b} : op = .BET → vs = [a, b] → ListOk E op vs → OperandOk op a → OperandOk op b →
      (typeOf a = .time → typeOf b = .time) → ¬ BetweenOk a b →
      Complains op vs pos ⟨b.pos, "[><] operation requires the second argument be greater".toList⟩

end Aql.Spec
