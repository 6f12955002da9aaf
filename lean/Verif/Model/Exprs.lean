import Verif.Model.Values
import Verif.Model.Ast
/-!
jsonmatcher/expr_*.go and str_matchers.go: the leaf matchers and their construction.
-/

namespace Aql

/-- Implementations of `fieldExpr` (field_expr.go and the expr_*.go files). A compiled regexp is
represented by its pattern text. -/
inductive FieldExpr
  | exists_
  | null
  | float (v0 v1 : F64) (op : Op)
  | datetime (v0 v1 : Int) (op : Op)
  | eqBool (value : Bool) (op : Op)
  | regexp (src : Str)
  | net (value : Prefix)
  | unicode (pat : Str)
  deriving DecidableEq

variable (E : Env)

/-! ### expr_net.go: finding addresses in text -/

/-- `\d{1,3}` greedy: up to three digits and the rest; none if there is no digit. -/
def upTo3 : Str → Option (Str × Str)
  | a :: s =>
    if isDig a then
      match s with
      | b :: t =>
        if isDig b then
          match t with
          | c :: u => if isDig c then some ([a, b, c], u) else some ([a, b], t)
          | [] => some ([a, b], t)
        else some ([a], s)
      | [] => some ([a], s)
    else none
  | [] => none

/-- `\d{1,3}\.` (a shorter run of digits is never followed by a point, so greedy is enough). -/
def octetDot (s : Str) : Option (Str × Str) :=
  match upTo3 s with
  | some (d, '.' :: t) => some (d ++ ['.'], t)
  | _ => none

/-- `(?:/\d{1,2})?` greedy. -/
def optSlash : Str → Str × Str
  | '/' :: a :: s =>
    if isDig a then
      match s with
      | b :: t => if isDig b then (['/', a, b], t) else (['/', a], s)
      | [] => (['/', a], s)
    else ([], '/' :: a :: s)
  | s => ([], s)

/-- The regexp of expr_net.go:9 anchored at the current position: matched text and rest. -/
def netHere (s : Str) : Option (Str × Str) :=
  match octetDot s with
  | none => none
  | some (a, s1) =>
    match octetDot s1 with
    | none => none
    | some (b, s2) =>
      match octetDot s2 with
      | none => none
      | some (c, s3) =>
        match upTo3 s3 with
        | none => none
        | some (d, s4) =>
          let (e, s5) := optSlash s4
          some (a ++ b ++ c ++ d ++ e, s5)

/-- `FindAllStringIndex(sv, -1)`: non-overlapping leftmost matches, as texts. The fuel is the
length of the text, which every step decreases. -/
def findNetsFuel : Nat → Str → List Str
  | 0, _ => []
  | _ + 1, [] => []
  | n + 1, c :: s =>
    match netHere (c :: s) with
    | some (m, rest) => m :: findNetsFuel n rest
    | none => findNetsFuel n s

/-- `getNets.FindAllStringIndex(sv, -1)`, expr_net.go:22: the texts that look like an address or a network. -/
def findNets (s : Str) : List Str := findNetsFuel s.length s

/-- expr_net.go:22-47, the body of the inner loop for one extracted text. -/
def netTextMatches (p : Prefix) (t : Str) : Bool :=
  if '/' ∈ t then
    match parsePrefix t with
    | none => false
    | some blk => p.overlaps blk
  else
    match parseAddr t with
    | none => false
    | some a => p.contains a

/-! ### matching -/

/-- expr_float.go:20-48, the switch on the operator. -/
def floatTest (op : Op) (v0 v1 fv : F64) : GoM Bool :=
  match op with
  | .EQ => .ok (F64.eq fv v0)
  | .LT => .ok (F64.lt fv v0)
  | .LTE => .ok (F64.le fv v0)
  | .GT => .ok (F64.lt v0 fv)
  | .GTE => .ok (F64.le v0 fv)
  | .BET => .ok (F64.le v0 fv && F64.le fv v1)
  | _ => .error .backstop

/-- expr_datetime.go:20-48, the switch on the operator. -/
def dateTest (op : Op) (v0 v1 dv : Int) : GoM Bool :=
  match op with
  | .EQ => .ok (decide (dv = v0))
  | .LT => .ok (decide (dv < v0))
  | .LTE => .ok (decide (dv ≤ v0))
  | .GT => .ok (decide (dv > v0))
  | .GTE => .ok (decide (dv ≥ v0))
  | .BET => .ok (decide (dv ≥ v0) && decide (dv ≤ v1))
  | _ => .error .backstop

/-- The loop bodies of the scalar matchers: does one scalar satisfy the expression
(expr_float.go:15-49, expr_datetime.go:15-49, expr_equal_bool.go:15-35, expr_regexp.go:12-20,
expr_net.go:16-48, str_matchers.go:81-90). `exists`/`null` do not look at scalars. -/
def FieldExpr.scalarTest (e : FieldExpr) (v : Json) : GoM Bool :=
  match e with
  | .exists_ => .ok false
  | .null => .ok false
  | .float v0 v1 op =>
    match getNumberVal E v with
    | none => .ok false
    | some fv => floatTest op v0 v1 fv
  | .datetime v0 v1 op =>
    match getDatetimeVal E v with
    | none => .ok false
    | some dv => dateTest op v0 v1 dv
  | .eqBool value op =>
    match op with
    | .EQ =>
      match getBoolVal v with
      | none => .ok false
      | some bv => .ok (bv == value)
    | _ => .error .backstop
  | .regexp src =>
    match getStringVal E v with
    | none => .ok false
    | some s => .ok (reMatchString E src s)
  | .net p =>
    match getStringVal E v with
    | none => .ok false
    | some s => .ok ((findNets s).any (netTextMatches p))
  | .unicode pat =>
    match getStringVal E v with
    | none => .ok false
    | some s => .ok (E.looseIndex pat s)

/-- `matches(field)` of each implementation (expr_exists.go:7-9, expr_null.go:12-19 and the loops
listed at `scalarTest`). -/
def FieldExpr.matches (e : FieldExpr) (values : List Json) : GoM Bool :=
  match e with
  | .exists_ => .ok (decide (0 < values.length))
  | .null => .ok (values.all Json.isNull)
  | e => anyGo (e.scalarTest E) (scalarValues values)

/-! ### construction -/

/-- str_matchers.go:103-105, `hasWildcard`. -/
def hasWildcard (s : Str) : Bool := s.any (fun c => c == '?' || c == '*')

/-- str_matchers.go:36-63, the loop of `stringSearchRegexp`: `accum` is the pending literal text. -/
def wcLoop (accum : Str) : Str → Str
  | [] => quoteMeta accum
  | '\\' :: '?' :: s => wcLoop (accum ++ ['?']) s
  | '\\' :: '*' :: s => wcLoop (accum ++ ['*']) s
  | '?' :: s => quoteMeta accum ++ '.' :: wcLoop [] s
  | '*' :: s => quoteMeta accum ++ '.' :: '*' :: '?' :: wcLoop [] s
  | c :: s => wcLoop (accum ++ [c]) s

/-- str_matchers.go:27-68, `stringSearchRegexp`: the pattern text handed to MustCompile. -/
def stringSearchRegexp (wc : Str) : Str :=
  let s := toLower E wc
  let asciiOnly := isASCII s
  "(?i)".toList ++ (if asciiOnly then "\\b".toList else []) ++ wcLoop [] s ++
    (if asciiOnly then "\\b".toList else [])

/-- str_matchers.go:13-24, `getStringMatcher` (MustCompile panics on an invalid pattern). -/
def getStringMatcher (s : Str) : GoM FieldExpr :=
  if !isASCII s && !hasWildcard s then .ok (.unicode s)
  else if reCompiles E (stringSearchRegexp E s) then .ok (.regexp (stringSearchRegexp E s))
  else .error .mustCompile

/-- `float64(v.Value())` for an integer value. -/
def i64ToF64 (i : Int) : F64 := toF64 (i : ℚ)

/-- expr_numeric.go:9-34, `exprNumeric`. -/
def exprNumeric (op : Op) (rvals : List Val) : GoM FieldExpr :=
  match rvals with
  | [.float f _ _] => .ok (.float f (.fin 0) op)
  | [.int i _ _] => .ok (.float (i64ToF64 i) (.fin 0) op)
  | [.time _ t _ _] => .ok (.datetime (unixNano t) 0 op)
  | _ => .error .backstop

/-- `constantValues[i]` of expr_between.go:17-30: zero unless numeric. -/
def betweenConst : Val → F64
  | .float f _ _ => f
  | .int i _ _ => i64ToF64 i
  | _ => .fin 0

/-- expr_between.go:9-50, `exprBetween`. -/
def exprBetween (rvals : List Val) : GoM FieldExpr :=
  match rvals with
  | [a, b] =>
    match a with
    | .float .. => .ok (.float (betweenConst a) (betweenConst b) .BET)
    | .int .. => .ok (.float (betweenConst a) (betweenConst b) .BET)
    | .time _ t _ _ =>
      match b with
      | .time _ u _ _ => .ok (.datetime (unixNano t) (unixNano u) .BET)
      | _ => .error .typeAssertion
    | _ => .error .backstop
  | _ => .error .backstop

/-- expr_eq.go:21-69, the matcher for one value. Line 47: `Add(24h).UnixNano() - 1`, the
subtraction being int64 arithmetic. -/
def eqMatcher : Val → GoM FieldExpr
  | .str s _ => getStringMatcher E s
  | .regex _ src _ => .ok (.regexp src)
  | .float f _ _ => .ok (.float f (.fin 0) .EQ)
  | .int i _ _ => .ok (.float (i64ToF64 i) (.fin 0) .EQ)
  | .bool b _ => .ok (.eqBool b .EQ)
  | .time _ t dayOnly _ =>
    if dayOnly then
      .ok (.datetime (unixNano t) (wrap64 (unixNano (t + nsPerDay) - 1)) .BET)
    else .ok (.datetime (unixNano t) 0 .EQ)
  | .net _ p _ => .ok (.net p)

/-- `for` loop collecting results of a function that may panic. -/
def mapGo {α β : Type} (f : α → GoM β) : List α → GoM (List β)
  | [] => .ok []
  | x :: xs =>
    match f x with
    | .error e => .error e
    | .ok y =>
      match mapGo f xs with
      | .error e => .error e
      | .ok ys => .ok (y :: ys)

/-- expr_eq.go:15-71, `exprEQ`. -/
def exprEQ (rvals : List Val) : GoM (List FieldExpr) :=
  match rvals with
  | [] => .error .backstop
  | vs => mapGo (eqMatcher E) vs

end Aql
