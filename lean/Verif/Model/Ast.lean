import Verif.Model.Env
import Verif.Model.Net
/-!
parser/ast/ast.go: values and nodes of the query AST.
-/

namespace Aql

/-- parser/ast/ast.go:188-472, `Val` and its implementations. Fields that Go derives from others on
construction (quoted text of strings, printed text of floats and booleans) are computed by
`Val.toStr`. A compiled regexp is represented by its pattern text. -/
inductive Val
  | int (iv : Int) (sv : Str) (pos : Pos)
  | float (fv : F64) (negZero : Bool) (pos : Pos)
  | str (sv : Str) (pos : Pos)
  | bool (bv : Bool) (pos : Pos)
  | regex (sv : Str) (src : Str) (pos : Pos)
  | net (sv : Str) (nv : Prefix) (pos : Pos)
  | time (sv : Str) (tv : Int) (dayOnly : Bool) (pos : Pos)
  deriving DecidableEq

/-- parser/ast/ast.go:221,256,287,326,357,403,462, `Type`. -/
def Val.type : Val → ValType
  | .int .. => .int
  | .float .. => .float
  | .str .. => .string
  | .bool .. => .bool
  | .regex .. => .regex
  | .net .. => .net
  | .time .. => .time

/-- parser/ast/ast.go:225,260,291,330,365,411,466, `Pos`. -/
def Val.pos : Val → Pos
  | .int _ _ p => p
  | .float _ _ p => p
  | .str _ p => p
  | .bool _ p => p
  | .regex _ _ p => p
  | .net _ _ p => p
  | .time _ _ _ p => p

/-- parser/ast/ast.go:28-79, `Node` and its implementations. -/
inductive Node
  | and (l r : Node)
  | or (l r : Node)
  | not (e : Node)
  | subdoc (field : List Str) (e : Node)
  | expr (op : Op) (field : List Str) (rvals : List Val) (pos : Pos)
  deriving DecidableEq

variable (E : Env)

/-- parser/ast/ast.go:213,248,279,318,353,399,454, `String` of values (float text: ast.go:243,
string text: ast.go:274, boolean text: ast.go:307-310). -/
def Val.toStr : Val → Str
  | .int _ sv _ => sv
  | .float fv z _ => formatFloat z fv
  | .str sv _ => quote E sv
  | .bool bv _ => if bv then "true".toList else "false".toList
  | .regex sv _ _ => sv
  | .net sv _ _ => sv
  | .time sv _ _ _ => sv

/-- `strings.ContainsAny(p, " .\"")`, ast.go:477. -/
def needsQuote (p : Str) : Bool := p.any (fun c => c == ' ' || c == '.' || c == '"')

/-- One path segment as printed, ast.go:477-481. -/
def fieldPiece (p : Str) : Str := if needsQuote p then quote E p else p

/-- parser/ast/ast.go:474-487, `FieldString`. -/
def fieldString : List Str → Str
  | [] => []
  | [p] => fieldPiece E p
  | p :: ps => fieldPiece E p ++ '.' :: fieldString ps

/-- Values printed with a separator (loops at ast.go:93-98 and 123-128). -/
def joinVals (sep : Str) : List Val → Str
  | [] => []
  | [v] => v.toStr E
  | v :: vs => v.toStr E ++ sep ++ joinVals sep vs

/-- parser/ast/ast.go:41,51,60,70,82, `Node.String`. -/
def Node.toStr : Node → Str
  | .and l r => "(&& ".toList ++ l.toStr ++ " ".toList ++ r.toStr ++ ")".toList
  | .or l r => "(|| ".toList ++ l.toStr ++ " ".toList ++ r.toStr ++ ")".toList
  | .not e => "(! ".toList ++ e.toStr ++ ")".toList
  | .subdoc f e => "(".toList ++ fieldString E f ++ "{".toList ++ e.toStr ++ "})".toList
  | .expr op f vs _ =>
    "(".toList ++ op.text ++ " ".toList ++ fieldString E f ++
      (match vs with
       | [] => []
       | [v] => " ".toList ++ v.toStr E
       | vs => " [".toList ++ joinVals E ", ".toList vs ++ "]".toList) ++ ")".toList

/-- parser/ast/ast.go:109-132, `ExprNode.FriendlyString`. -/
def friendlyString (op : Op) (f : List Str) (vs : List Val) : Str :=
  fieldString E f ++ ":".toList ++ (if op = .EQ then [] else op.text) ++ " ".toList ++
    (match vs with
     | [] => []
     | [v] => v.toStr E
     | vs => "(".toList ++ joinVals E ",".toList vs ++ ")".toList)

/-! ### Constructors of values -/

/-- strconv.ParseInt(s, 10, 64): optional sign, digits, int64 range. -/
def parseInt64 (s : Str) : Option Int :=
  let (neg, t) := takeSign s
  if t ≠ [] ∧ t.all isDig then
    let v : Int := if neg then -(natOfDigits t : Int) else (natOfDigits t : Int)
    if -(2 ^ 63 : Int) ≤ v ∧ v < 2 ^ 63 then some v else none
  else none

/-- parser/ast/ast.go:200-211, `NewIntVal`. -/
def newIntVal (b : Str) (pos : Pos) : Option Val := (parseInt64 b).map (Val.int · b pos)

/-- parser/ast/ast.go:235-246, `NewFloatVal`. -/
def newFloatVal (b : Str) (pos : Pos) : Option Val :=
  match parseFloat E b with
  | none => none
  | some .nan => none
  | some f => some (.float f (isNegZero b f) pos)

/-- `strings.ToLower`, as far as the result is compared with `1`, `t`, `true`, `0`, `f` and `false`: no character outside
ASCII has the lower case of one of their letters. -/
def lowerAscii (s : Str) : Str := s.map fun c => if 'A' ≤ c ∧ c ≤ 'Z' then Char.ofNat (c.toNat + 32) else c

/-- strconv.ParseBool on a text in lower case. -/
def parseBoolLower (s : Str) : Option Bool :=
  if s = "1".toList ∨ s = "t".toList ∨ s = "true".toList then some true
  else if s = "0".toList ∨ s = "f".toList ∨ s = "false".toList then some false
  else none

/-- parser/ast/ast.go:301-316, `NewBoolVal`. -/
def newBoolVal (b : Str) (pos : Pos) : Option Val := (parseBoolLower (lowerAscii b)).map (Val.bool · pos)

/-- `strings.Trim(s, "/")`. -/
def trimSlash (s : Str) : Str :=
  ((s.dropWhile (· == '/')).reverse.dropWhile (· == '/')).reverse

/-- parser/ast/ast.go:340-351, `NewRegexpVal`. -/
def newRegexpVal (b : Str) (pos : Pos) : Option Val :=
  if reCompiles E (trimSlash b) then some (.regex b (trimSlash b) pos) else none

/-- parser/ast/ast.go:380-397, `NewNetVal`. -/
def newNetVal (b : Str) (pos : Pos) : Option Val :=
  let sv := if '/' ∈ b then b else b ++ "/32".toList
  (parsePrefix sv).map (Val.net sv · pos)

/-- parser/ast/ast.go:422-452, `NewTimeVal` (`len` is in bytes; the grammar only passes ASCII). -/
def newTimeVal (b : Str) (pos : Pos) : Option Val :=
  if b.length = 10 then (parseDay b).map (Val.time b · true pos)
  else (parseRFC3339 b).map (Val.time b · false pos)

end Aql
