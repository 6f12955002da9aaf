import Verif.Model.Exprs
/-!
jsonmatcher/build_matcher.go, nodes.go, node_stats.go, jsonmatcher.go.
-/

namespace Aql

/-- nodes.go:13-16,30-33,47-50,92-96, the implementations of `boolNode`. `nil` is the nil interface
returned by `build` for a node type it does not handle. The name is `nodeStats.nodeName`
(the builder always has `withStats`, jsonmatcher.go:25). -/
inductive BoolNode
  | and (l r : BoolNode)
  | or (l r : BoolNode)
  | not (e : BoolNode)
  | expr (path : List Str) (exprs : List FieldExpr) (name : Str)
  | nil
  deriving DecidableEq

variable (E : Env)

/-- build_matcher.go:90-120, the matchers of one comparison. -/
def buildExprs (op : Op) (rvals : List Val) : GoM (List FieldExpr) :=
  match op with
  | .EXS => .ok [.exists_]
  | .NUL => .ok [.null]
  | .LT => (exprNumeric .LT rvals).map ([·])
  | .LTE => (exprNumeric .LTE rvals).map ([·])
  | .GT => (exprNumeric .GT rvals).map ([·])
  | .GTE => (exprNumeric .GTE rvals).map ([·])
  | .BET => (exprBetween rvals).map ([·])
  | .EQ => exprEQ E rvals
  | .SIM => exprEQ E rvals

/-- build_matcher.go:27-125, `build` (left operand first). -/
def build : Node → GoM BoolNode
  | .and l r =>
    match build l with
    | .error e => .error e
    | .ok l' =>
      match build r with
      | .error e => .error e
      | .ok r' => .ok (.and l' r')
  | .or l r =>
    match build l with
    | .error e => .error e
    | .ok l' =>
      match build r with
      | .error e => .error e
      | .ok r' => .ok (.or l' r')
  | .not e =>
    match build e with
    | .error e => .error e
    | .ok e' => .ok (.not e')
  | .subdoc _ _ => .ok .nil
  | .expr op f vs _ =>
    match buildExprs E op vs with
    | .error e => .error e
    | .ok es => .ok (.expr f es (friendlyString E op f vs))

/-- Address of a node inside the matcher tree: the directions from the root. -/
abbrev Addr := List Bool

/-- One atomic update of a statistics counter (node_stats.go:22-27). -/
inductive Tick
  | checked (a : Addr)
  | matched (a : Addr)
  deriving DecidableEq, Repr

/-- node_stats.go:22-27, `mark`: first `timesChecked`, then `timesMatched` if matched. -/
def markTicks (a : Addr) (m : Bool) : List Tick :=
  if m then [.checked a, .matched a] else [.checked a]

/-- nodes.go:100-108, the result of a comparison before it is recorded. -/
def exprResult (path : List Str) (exprs : List FieldExpr) (root : Json) : GoM Bool :=
  match getField E path root with
  | .error e => .error e
  | .ok values =>
    if 0 < values.length then anyGo (fun m => m.matches E values) exprs else .ok false

/-- nodes.go:18-24,35-41,52-58,98-114, `result`: the counter updates performed, in order, and the
outcome. `&&` and `||` short-circuit. The counters of a node are updated after its operands. -/
def BoolNode.result (n : BoolNode) (root : Json) (a : Addr) : List Tick × GoM Bool :=
  match n with
  | .and l r =>
    match l.result root (a ++ [false]) with
    | (t1, .error e) => (t1, .error e)
    | (t1, .ok false) => (t1 ++ markTicks a false, .ok false)
    | (t1, .ok true) =>
      match r.result root (a ++ [true]) with
      | (t2, .error e) => (t1 ++ t2, .error e)
      | (t2, .ok b) => (t1 ++ t2 ++ markTicks a b, .ok b)
  | .or l r =>
    match l.result root (a ++ [false]) with
    | (t1, .error e) => (t1, .error e)
    | (t1, .ok true) => (t1 ++ markTicks a true, .ok true)
    | (t1, .ok false) =>
      match r.result root (a ++ [true]) with
      | (t2, .error e) => (t1 ++ t2, .error e)
      | (t2, .ok b) => (t1 ++ t2 ++ markTicks a b, .ok b)
  | .not e =>
    match e.result root (a ++ [false]) with
    | (t1, .error e) => (t1, .error e)
    | (t1, .ok b) => (t1 ++ markTicks a (!b), .ok (!b))
  | .expr path exprs _ =>
    match exprResult E path exprs root with
    | .error e => ([], .error e)
    | .ok b => (markTicks a b, .ok b)
  | .nil => ([], .error .nilDeref)

/-- The counters of all nodes. -/
abbrev Counters := Addr → Nat × Nat

/-- All counters zero (fresh `nodeStats`). -/
def Counters.zero : Counters := fun _ => (0, 0)

/-- Effect of one atomic increment. -/
def Counters.tick (c : Counters) : Tick → Counters
  | .checked a => fun b => if b = a then ((c b).1 + 1, (c b).2) else c b
  | .matched a => fun b => if b = a then ((c b).1, (c b).2 + 1) else c b

/-- Effect of a sequence of increments. -/
def Counters.ticks (c : Counters) (ts : List Tick) : Counters := ts.foldl Counters.tick c

/-- node_stats.go:5-10, `MatchStats`. -/
inductive MatchStats
  | mk (name : Str) (checked matched : Nat) (children : List MatchStats)

/-- jsonmatcher.go:11-15 with the counters reachable from `root`. -/
structure Matcher where
  root : BoolNode
  query : Str
  counters : Counters

/-- The bytes given to `Match`: either not valid JSON or the document they encode. -/
inductive Doc
  | invalid
  | valid (j : Json)

/-- Outcome of `Match`. -/
inductive MatchOut
  | result (b : Bool)
  | invalidJSON
  | panic (p : GoPanic)
  deriving DecidableEq

/-- jsonmatcher.go:35-40, `Match`. -/
def Matcher.match (m : Matcher) (d : Doc) : Matcher × MatchOut :=
  match d with
  | .invalid => (m, .invalidJSON)
  | .valid j =>
    match m.root.result E j [] with
    | (ts, .ok b) => ({ m with counters := m.counters.ticks ts }, .result b)
    | (ts, .error p) => ({ m with counters := m.counters.ticks ts }, .panic p)

/-- `nodeStats.nodeName` of a node (build_matcher.go:38,49,59,84). -/
def BoolNode.name : BoolNode → Str
  | .and _ _ => "AND".toList
  | .or _ _ => "OR".toList
  | .not _ => "NOT".toList
  | .expr _ _ n => n
  | .nil => []

/-- node_stats.go:29-42, `toStatsNode(children...)` for already computed children. -/
def toStatsNode (name : Str) (c : Nat × Nat) (children : List MatchStats) : MatchStats :=
  .mk name c.1 c.2 children

/-- nodes.go:26-28,43-45,60-62,116-121 via jsonmatcher.go:53-55, `Stats`: every node type calls
`toStatsNode()` without children. -/
def Matcher.stats (m : Matcher) : GoM MatchStats :=
  match m.root with
  | .nil => .error .nilDeref
  | r => .ok (toStatsNode r.name (m.counters []) [])

/-- jsonmatcher.go:49-51, `Query`. -/
def Matcher.getQuery (m : Matcher) : Str := m.query

end Aql
