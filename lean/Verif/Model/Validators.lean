import Verif.Model.Ast
/-!
parser/validators.go: the validation pass.
-/

namespace Aql

/-- internal/grammar/aql.peg:27-33, `ParseError`. -/
structure PErr where
  pos : Pos
  msg : Str
  deriving DecidableEq, Repr

variable (E : Env)

/-- parser/validators.go:164-178, `mustBeOneOf`: the first value whose type is not listed (the code
returns its index and the callers only index the list with it). -/
def mustBeOneOf (types : List ValType) : List Val → Option Val
  | [] => none
  | v :: vs => if v.type ∈ types then mustBeOneOf types vs else some v

/-- `fmt.Sprintf("[%s] operation %s", op, msg)`. -/
def opMsg (op : Op) (msg : String) : Str :=
  "[".toList ++ op.text ++ "] operation ".toList ++ msg.toList

/-- parser/validators.go:28-44, `checkValues`. -/
def checkValues (op : Op) (vs : List Val) : Option PErr :=
  match op with
  | .LT | .LTE | .GT | .GTE | .BET =>
    (mustBeOneOf [.int, .float, .time] vs).map fun v => ⟨v.pos, opMsg op "needs numeric arguments"⟩
  | .SIM =>
    (mustBeOneOf [.string, .regex, .bool] vs).map fun v =>
      ⟨v.pos, opMsg op "needs string, or boolean arguments"⟩
  | _ => none

/-- parser/validators.go:46-101, `checkArity`, with the cases of the two switches that an operator
selects combined. -/
def checkArity (op : Op) (vs : List Val) (pos : Pos) : Option PErr :=
  match op with
  | .EXS | .NUL =>
    if vs.length > 0 then some ⟨pos, opMsg op "does not accept arguments"⟩ else none
  | .LT | .LTE | .GT | .GTE =>
    if vs.length ≠ 1 then some ⟨pos, opMsg op "requires exactly 1 arguments"⟩ else none
  | .BET =>
    if vs.length ≠ 2 then some ⟨pos, opMsg op "requires exactly 2 arguments"⟩ else none
  | .EQ | .SIM =>
    if vs.length < 1 then some ⟨pos, opMsg op "requires at least 1 arguments"⟩ else none

/-- `(value %d/%d)` -/
def valueIdx (i n : Nat) : Str :=
  " (value ".toList ++ (toString (i + 1)).toList ++ "/".toList ++ (toString n).toList ++ ")".toList

/-- parser/validators.go:109-126, the loop of `checkRVals`; `seen` is the set of printed values, `i`
the index and `n` the number of values. -/
def checkRValsLoop (op : Op) (n : Nat) (seen : List Str) (i : Nat) : List Val → Option PErr
  | [] => none
  | rv :: rest =>
    let sv := rv.toStr E
    if sv ∈ seen then
      some ⟨rv.pos, "duplicate argument [".toList ++ sv ++ "]".toList ++ valueIdx i n⟩
    else if op = .EQ ∧ ((sv = "true".toList ∧ "false".toList ∈ seen) ∨
        (sv = "false".toList ∧ "true".toList ∈ seen)) then
      some ⟨rv.pos, "conflicting boolean value [".toList ++ sv ++ "]".toList ++ valueIdx i n⟩
    else checkRValsLoop op n (sv :: seen) (i + 1) rest

/-- parser/validators.go:104-128, `checkRVals`. -/
def checkRVals (op : Op) (vs : List Val) : Option PErr :=
  if vs.length ≤ 1 then none else checkRValsLoop E op vs.length [] 0 vs

/-- The numeric reading of lines 145-157: zero for anything that is not a number. -/
def numOrZero : Val → F64
  | .int i _ _ => toF64 (i : ℚ)
  | .float f _ _ => f
  | _ => .fin 0

/-- The message of lines 140 and 159. -/
def greaterMsg : Str := "[><] operation requires the second argument be greater".toList

/-- parser/validators.go:130-162, `checkBetween` (indexing an operand that is not there panics). -/
def checkBetween (op : Op) (vs : List Val) : GoM (Option PErr) :=
  if op ≠ .BET then .ok none
  else
    match vs with
    | a :: b :: _ =>
      match a with
      | .time _ t _ _ =>
        match b with
        | .time _ u _ p => .ok (if t > u ∨ t = u then some ⟨p, greaterMsg⟩ else none)
        | b => .ok (some ⟨b.pos, "second argument must also be a datetime value".toList⟩)
      | a => .ok (if F64.le (numOrZero b) (numOrZero a) then some ⟨b.pos, greaterMsg⟩ else none)
    | _ => .error .outOfRange

/-- parser/validators.go:14-23, the four checks on one comparison, first error wins. -/
def validateExpr (op : Op) (vs : List Val) (pos : Pos) : GoM (Option PErr) :=
  match checkValues op vs with
  | some e => .ok (some e)
  | none =>
    match checkArity op vs pos with
    | some e => .ok (some e)
    | none =>
      match checkRVals E op vs with
      | some e => .ok (some e)
      | none => checkBetween op vs

/-- parser/validators.go:11-26, `opValidator`. -/
def opValidator : Node → GoM (Option PErr)
  | .expr op _ vs pos => validateExpr E op vs pos
  | _ => .ok none

end Aql
