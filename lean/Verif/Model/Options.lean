import Verif.Model.Peg
/-!
internal/grammar/parser_gen.go: the parser run time with the options `MaxExpressions` (2274-2280)
and `Memoize` (2346-2352). `Model/Peg` is the run time with the options that the repository uses
(neither of these); here the number of evaluated expressions and the table of results are threaded
through the run.

The table is keyed by the address of an expression or a rule (2953-2975). The address of an
expression is modelled by the rule it belongs to and its path in that rule.
-/

namespace Aql

variable (E : Env)

/-- Address of an expression: its rule and the path to it, innermost step first. -/
abbrev NodeId := Rule × List Nat

/-- The `i`-th child of an expression. -/
def NodeId.child (n : NodeId) (i : Nat) : NodeId := (n.1, i :: n.2)

/-- Key of the memoization table within an offset: a `*rule` or an expression. -/
inductive MKey
  | rule (r : Rule)
  | node (n : NodeId)
  deriving DecidableEq

/-- parser_gen.go:2665-2669, `resultTuple`. -/
inductive MRes
  | ok (v : PV) (c : Cursor)
  | fail (c : Cursor)

/-- The memoization table, parser_gen.go:2710-2713: by offset and key, latest entry first. -/
abbrev Memo := List ((Nat × MKey) × MRes)

/-- The options: `maxExprCnt` and `memoize`. -/
structure Opts where
  maxExprs : Nat
  memoize : Bool

/-- Largest `uint64`. -/
def maxUint64 : Nat := 2 ^ 64 - 1

/-- parser_gen.go:2655-2657: `0` stands for the largest number. -/
def Opts.limit (o : Opts) : Nat := if o.maxExprs = 0 then maxUint64 else o.maxExprs

/-- The parts of `parser` that outlive an expression: `ExprCnt` and `memo`. -/
structure PState where
  cnt : Nat
  memo : Memo

/-- Result of evaluating an expression. `panic none` is `panic(errMaxExprCnt)`. -/
inductive ORes
  | ok (v : PV) (c : Cursor) (fr : VFrame)
  | fail (c : Cursor)
  | panic (p : Option GoPanic) (c : Cursor)

/-- Outcome: out of fuel, or the events, the result and the state. -/
inductive OOut
  | oof
  | done (log : List Ev) (r : ORes) (s : PState)

/-- Continue with the result and the state, keeping the events. -/
def OOut.andThen (o : OOut) (k : ORes → PState → OOut) : OOut :=
  match o with
  | .oof => .oof
  | .done l r s =>
    match k r s with
    | .oof => .oof
    | .done l' r' s' => .done (l ++ l') r' s'

/-- Dynamic context: `maxFailInvertExpected` and the recovery stack (top first), with the address of
each recovery expression. -/
structure OCtx where
  inv : Bool
  recov : List (FailLabel × NodeId × PExpr)

/-- Evaluation of sub-expressions: context, address, expression, frame, cursor and state. -/
abbrev OEval := OCtx → NodeId → PExpr → VFrame → Cursor → PState → OOut

/-- parser_gen.go:3455-3474, the loop of `parseSeqExpr` from the `i`-th expression. -/
def oSeqLoop (ev : OEval) (ctx : OCtx) (n : NodeId) (start : Cursor) :
    Nat → List PExpr → List PV → VFrame → Cursor → PState → OOut
  | _, [], acc, fr, c, s => .done [] (.ok (.list acc) c fr) s
  | i, e :: es, acc, fr, c, s =>
    (ev ctx (n.child i) e fr c s).andThen fun
      | .ok v c' fr', s' => oSeqLoop ev ctx n start (i + 1) es (acc ++ [v]) fr' c' s'
      | .fail _, s' => .done [] (.fail start) s'
      | .panic p c', s' => .done [] (.panic p c') s'

/-- parser_gen.go:3309-3331, the loop of `parseChoiceExpr` from the `i`-th alternative. -/
def oChoiceLoop (ev : OEval) (ctx : OCtx) (n : NodeId) (fr : VFrame) :
    Nat → List PExpr → Cursor → PState → OOut
  | _, [], c, s => .done [] (.fail c) s
  | i, e :: es, c, s =>
    (ev ctx (n.child i) e [] c s).andThen fun
      | .ok v c' _, s' => .done [] (.ok v c' fr) s'
      | .fail c', s' => oChoiceLoop ev ctx n fr (i + 1) es c' s'
      | .panic p c', s' => .done [] (.panic p c') s'

/-- parser_gen.go:3504-3520 and 3404-3424, the loops of `parseZeroOrMoreExpr` and
`parseOneOrMoreExpr` (`one`). -/
def oRepLoop (ev : OEval) (ctx : OCtx) (n : NodeId) (fr : VFrame) (e : PExpr) (one : Bool) :
    Nat → List PV → Cursor → PState → OOut
  | 0, _, _, _ => .oof
  | k + 1, acc, c, s =>
    (ev ctx (n.child 0) e [] c s).andThen fun
      | .ok v c' _, s' => oRepLoop ev ctx n fr e one k (acc ++ [v]) c' s'
      | .fail c', s' => .done [] (if one ∧ acc = [] then .fail c' else .ok (.list acc) c' fr) s'
      | .panic p c', s' => .done [] (.panic p c') s'

/-- parser_gen.go:3488-3502, `parseThrowExpr`. -/
def oThrowLoop (ev : OEval) (ctx : OCtx) (l : FailLabel) (fr : VFrame) :
    List (FailLabel × NodeId × PExpr) → Cursor → PState → OOut
  | [], c, s => .done [] (.fail c) s
  | (l', n, e) :: rs, c, s =>
    if l' = l then
      (ev ctx n e fr c s).andThen fun
        | .ok v c' fr', s' => .done [] (.ok v c' fr') s'
        | .fail c', s' => oThrowLoop ev ctx l fr rs c' s'
        | .panic p c', s' => .done [] (.panic p c') s'
    else oThrowLoop ev ctx l fr rs c s

/-- A result of `Model/Peg`. -/
def ORes.ofRes : Res → ORes
  | .ok v c fr => .ok v c fr
  | .fail c => .fail c
  | .panic p c => .panic (some p) c

/-- An outcome of `Model/Peg` that leaves the state alone. -/
def OOut.ofOut (s : PState) : Out → OOut
  | .oof => .oof
  | .done l r => .done l (.ofRes r) s

/-- parser_gen.go:2953-2963, `getMemoized`. -/
def getMemoized (c : Cursor) (k : MKey) (s : PState) : Option MRes := s.memo.lookup (c.loc.off, k)

/-- parser_gen.go:2965-2975, `setMemoized`. -/
def setMemoized (c : Cursor) (k : MKey) (r : MRes) (s : PState) : PState :=
  { s with memo := ((c.loc.off, k), r) :: s.memo }

/-- parser_gen.go:3066-3072 and 3093-3098: a hit sets the position and returns the value; the labels
that the expression set when it was evaluated are not set again. -/
def memoHit (fr : VFrame) (s : PState) : MRes → OOut
  | .ok v c => .done [] (.ok v c fr) s
  | .fail c => .done [] (.fail c) s

/-- parser_gen.go:3084-3086 and 3148-3150: remember the result of the expression or rule `k` that
began at `start`. A panic leaves no entry. -/
def memoStore (o : Opts) (start : Cursor) (k : MKey) (r : ORes) (s : PState) : PState :=
  if o.memoize then
    match r with
    | .ok v c _ => setMemoized start k (.ok v c) s
    | .fail c => setMemoized start k (.fail c) s
    | .panic _ _ => s
  else s

/-- Look up `k` (if the option is set), else evaluate and remember. -/
def memoized (o : Opts) (k : MKey) (fr : VFrame) (c : Cursor) (s : PState) (body : PState → OOut) :
    OOut :=
  match if o.memoize then getMemoized c k s else none with
  | some r => memoHit fr s r
  | none => (body s).andThen fun r s' => .done [] r (memoStore o c k r s')

/-- parser_gen.go:3061-3088, `parseRule`. -/
def oParseRule (o : Opts) (ev : OEval) (ctx : OCtx) (r : Rule) (fr : VFrame) (c : Cursor)
    (s : PState) : OOut :=
  memoized o (.rule r) fr c s fun s =>
    (ev ctx (r, []) (grammar r) [] c s).andThen fun
      | .ok v c' _, s' => .done [] (.ok v c' fr) s'
      | r, s' => .done [] r s'

/-- One expression, given the evaluation of its sub-expressions and a bound for loops (`step` in
`Model/Peg`). -/
def oStep (o : Opts) (k : Nat) (ev : OEval) (ctx : OCtx) (n : NodeId) (e : PExpr) (fr : VFrame)
    (c : Cursor) (s : PState) : OOut :=
  match e with
  | .action a e =>
    (ev ctx (n.child 0) e fr c s).andThen fun
      | .ok _ c' fr', s' => .ofOut s' (actStep E a c c' fr')
      | r, s' => .done [] r s'
  | .seq es => oSeqLoop ev ctx n c 0 es [] fr c s
  | .choice es => oChoiceLoop ev ctx n fr 0 es c s
  | .label l e =>
    (ev ctx (n.child 0) e [] c s).andThen fun
      | .ok v c' _, s' => .done [] (.ok v c' ((l, v) :: fr)) s'
      | r, s' => .done [] r s'
  | .rule r => oParseRule o ev ctx r fr c s
  | .not e =>
    (ev { ctx with inv := !ctx.inv } (n.child 0) e [] c s).andThen fun
      | .ok _ _ _, s' => .done [] (.fail c) s'
      | .fail _, s' => .done [] (.ok .nil c fr) s'
      | .panic p c', s' => .done [] (.panic p c') s'
  | .star e => oRepLoop ev ctx n fr e false k [] c s
  | .plus e => oRepLoop ev ctx n fr e true k [] c s
  | .opt e =>
    (ev ctx (n.child 0) e [] c s).andThen fun
      | .ok v c' _, s' => .done [] (.ok v c' fr) s'
      | .fail c', s' => .done [] (.ok .nil c' fr) s'
      | .panic p c', s' => .done [] (.panic p c') s'
  | .recover l e r =>
    ev { ctx with recov := (l, n.child 1, r) :: ctx.recov } (n.child 0) e fr c s
  | .throw l => oThrowLoop ev ctx l fr ctx.recov c s
  /- The matchers and the state code have no sub-expressions and do not look at the state. -/
  | e => .ofOut s (step E k (fun _ _ _ _ => .oof) ⟨ctx.inv, []⟩ e fr c)

/-- parser_gen.go:3102-3105: `ExprCnt++` (a `uint64`) and the check against the maximum. -/
def oTick (o : Opts) (c : Cursor) (s : PState) (k : PState → OOut) : OOut :=
  let s' := { s with cnt := (s.cnt + 1) % 2 ^ 64 }
  if o.limit < s'.cnt then .done [] (.panic none c) s'
  else (OOut.done [.tick] (.fail c) s').andThen fun _ s => k s

/-- parser_gen.go:3090-3152, `parseExpr`. The event `tick` stands for an expression that is
evaluated: the last one counted, if it exceeds the maximum, is not. -/
def oRun (o : Opts) : Nat → OEval
  | 0, _, _, _, _, _, _ => .oof
  | f + 1, ctx, n, e, fr, c, s =>
    memoized o (.node n) fr c s fun s => oTick o c s fun s => oStep E o f (oRun o f) ctx n e fr c s

/-- The run of the start rule (parser_gen.go:3019-3020). -/
def oRunStart (o : Opts) (input : List Sym) : OOut :=
  (OOut.done (encErr (.init input)) (.fail (.init input)) ⟨0, []⟩).andThen fun _ s =>
    oParseRule o (oRun E o (depthBound input.length)) ⟨false, []⟩ .Start [] (.init input) s

/-- Outcome of `parse` with options: as without, or `errMaxExprCnt` with its position. -/
inductive OParseOut
  | out (r : ParseOut)
  | maxExprs (at_ : Loc)

/-- parser_gen.go:2984-3048: the first recorded error, if any, else the result. -/
def oFinish (log : List Ev) : ORes → OParseOut
  | .ok v c fr => .out (finish log (.ok v c fr))
  | .fail c => .out (finish log (.fail c))
  | .panic (some p) c => .out (finish log (.panic p c))
  | .panic none c =>
    match errorsOf log with
    | (l, e) :: _ => .out (.error l e)
    | [] => .maxExprs c.loc

/-- `Parse(filename, b, MaxExpressions(o.maxExprs), Memoize(o.memoize))`, parser_gen.go:2435-2437. -/
def oParse (o : Opts) (input : List Sym) : Option OParseOut :=
  match oRunStart E o input with
  | .oof => none
  | .done log r _ => some (oFinish log r)

end Aql
