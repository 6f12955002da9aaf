import Verif.Model.Matcher
/-!
jsonmatcher/nodes.go, node_stats.go, jsonmatcher.go executed by several goroutines at once.

Each goroutine is a stack machine for one `Match` call on valid JSON (or one `Stats` call). One step of
the system is one step of one goroutine. The shared memory is the counters: they are
`go.uber.org/atomic` integers, so an increment or a load is one step. Everything else a goroutine
reads (the matcher tree, the compiled values, its own document) is never written after `NewMatcher`.
The counters are unbounded here (`int64` in Go).
-/

namespace Aql

/-- A pending part of `result` in an enclosing call. -/
inductive Frame
  /-- nodes.go:19, left operand of `&&` is being evaluated -/
  | andL (r : BoolNode) (a : Addr)
  /-- nodes.go:19, right operand of `&&` -/
  | andR (a : Addr)
  /-- nodes.go:36, left operand of `||` -/
  | orL (r : BoolNode) (a : Addr)
  /-- nodes.go:36, right operand of `||` -/
  | orR (a : Addr)
  /-- nodes.go:53, operand of `!` -/
  | notK (a : Addr)

/-- What a goroutine does next. -/
inductive Ctl
  /-- call `result` of the node at the address -/
  | eval (n : BoolNode) (a : Addr)
  /-- node_stats.go:23, increment `timesChecked` -/
  | incChecked (a : Addr) (b : Bool)
  /-- node_stats.go:25, increment `timesMatched` -/
  | incMatched (a : Addr)
  /-- return from `result` -/
  | ret (b : Bool)
  | panic (p : GoPanic)

/-- A goroutine running `Match`. -/
structure Call where
  doc : Json
  ctl : Ctl
  stack : List Frame

variable (E : Env)

/-- jsonmatcher.go:39, the call `m.root.result(data)`. -/
def Call.start (root : BoolNode) (d : Json) : Call := ⟨d, .eval root [], []⟩

/-- One step of `result` (nodes.go:18-24,35-41,52-58,98-114, node_stats.go:22-27); `none` when the call has
returned or panicked. -/
def Call.step (c : Call) (cnt : Counters) : Option (Call × Counters) :=
  match c.ctl, c.stack with
  | .eval (.and l r) a, st => some (⟨c.doc, .eval l (a ++ [false]), .andL r a :: st⟩, cnt)
  | .eval (.or l r) a, st => some (⟨c.doc, .eval l (a ++ [false]), .orL r a :: st⟩, cnt)
  | .eval (.not e) a, st => some (⟨c.doc, .eval e (a ++ [false]), .notK a :: st⟩, cnt)
  | .eval (.expr path es _) a, st =>
    match exprResult E path es c.doc with
    | .ok b => some (⟨c.doc, .incChecked a b, st⟩, cnt)
    | .error p => some (⟨c.doc, .panic p, st⟩, cnt)
  | .eval .nil _, st => some (⟨c.doc, .panic .nilDeref, st⟩, cnt)
  | .incChecked a true, st => some (⟨c.doc, .incMatched a, st⟩, cnt.tick (.checked a))
  | .incChecked a false, st => some (⟨c.doc, .ret false, st⟩, cnt.tick (.checked a))
  | .incMatched a, st => some (⟨c.doc, .ret true, st⟩, cnt.tick (.matched a))
  | .ret true, .andL r a :: st => some (⟨c.doc, .eval r (a ++ [true]), .andR a :: st⟩, cnt)
  | .ret false, .andL _ a :: st => some (⟨c.doc, .incChecked a false, st⟩, cnt)
  | .ret b, .andR a :: st => some (⟨c.doc, .incChecked a b, st⟩, cnt)
  | .ret true, .orL _ a :: st => some (⟨c.doc, .incChecked a true, st⟩, cnt)
  | .ret false, .orL r a :: st => some (⟨c.doc, .eval r (a ++ [true]), .orR a :: st⟩, cnt)
  | .ret b, .orR a :: st => some (⟨c.doc, .incChecked a b, st⟩, cnt)
  | .ret b, .notK a :: st => some (⟨c.doc, .incChecked a (!b), st⟩, cnt)
  | .ret _, [] => none
  | .panic _, _ => none

/-- The outcome of a finished call (jsonmatcher.go:39). -/
def Call.outcome (c : Call) : Option MatchOut :=
  match c.ctl, c.stack with
  | .ret b, [] => some (.result b)
  | .panic p, _ => some (.panic p)
  | _, _ => none

/-- A goroutine running `Stats` (node_stats.go:30-34 through jsonmatcher.go:53-55): `timesChecked` of the root
is loaded, then `timesMatched`. -/
inductive Reader
  | start
  | loadedChecked (checked : Nat)
  | done (checked matched : Nat)
  deriving DecidableEq

/-- The two atomic loads. -/
def Reader.step (r : Reader) (cnt : Counters) : Option Reader :=
  match r with
  | .start => some (.loadedChecked (cnt []).1)
  | .loadedChecked c => some (.done c (cnt []).2)
  | .done _ _ => none

/-- All goroutines using one matcher, and the shared counters. -/
structure Sys where
  cnt : Counters
  calls : List Call
  readers : List Reader

/-- One step of some goroutine. -/
inductive SysStep : Sys → Sys → Prop
  | call {cnt cnt' pre c c' post rs} : c.step E cnt = some (c', cnt') →
      SysStep ⟨cnt, pre ++ c :: post, rs⟩ ⟨cnt', pre ++ c' :: post, rs⟩
  | reader {cnt cs pre r r' post} : r.step cnt = some r' →
      SysStep ⟨cnt, cs, pre ++ r :: post⟩ ⟨cnt, cs, pre ++ r' :: post⟩

/-- Any number of steps, in any order the scheduler chooses. -/
inductive SysRun : Sys → Sys → Prop
  | refl (s) : SysRun s s
  | step {s t u} : SysRun s t → SysStep E t u → SysRun s u

/-- Calls on the given documents and `k` calls of `Stats`, all about to start, on a matcher. -/
def Sys.start (m : Matcher) (ds : List Json) (k : Nat) : Sys :=
  ⟨m.counters, ds.map (Call.start m.root), List.replicate k .start⟩

end Aql
