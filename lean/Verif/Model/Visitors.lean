import Verif.Model.Validators
/-!
parser/visitors.go, message.go and the visitor part of parser.go.

A visitor is a function that may keep state between calls. All visitors of one parse share a state
`σ` (what their closures can reach) and a store of message tapes, indexed by message visitor, so
that registering the same message visitor twice is covered. The effect of a message visitor's
function on its tape is the list of messages it appends: the tape has no other operations.
-/

namespace Aql

/-- What a visitor can return (nil is `none` of the option around it): visitors.go:10-13. -/
inductive VErr
  | skip
  | skipAll
  | parse (e : PErr)
  | other (msg : Str)
  deriving DecidableEq

/-- message.go:17-23, `MessageType`. -/
inductive MsgType
  | hint | warning | error
  deriving DecidableEq, Repr

/-- message.go:47-51, `ParserMessage`. -/
structure Msg where
  type : MsgType
  pos : Pos
  text : Str
  deriving DecidableEq, Repr

/-- visitors.go:101-104, `MessageTape`. -/
structure Tape where
  firstErr : Option Msg
  messages : List Msg

/-- visitors.go:94-97, a new tape. -/
def Tape.new : Tape := ⟨none, []⟩

/-- visitors.go:167-173, `addMsg` (line 169 tests `firstErr != nil`). -/
def Tape.addMsg (t : Tape) (m : Msg) : Tape :=
  { firstErr := if m.type = .error ∧ t.firstErr ≠ none then some m else t.firstErr
    messages := t.messages ++ [m] }

/-- Several messages appended in order. -/
def Tape.addMsgs (t : Tape) (ms : List Msg) : Tape := ms.foldl Tape.addMsg t

/-- State of a parse with visitors. -/
structure VState (σ : Type) where
  user : σ
  tapes : Nat → Tape

/-- visitors.go:66-98: a plain visitor, or the message visitor with the given tape. -/
inductive Visitor (σ : Type)
  | func (f : σ → Node → GoM (σ × Option VErr))
  | message (id : Nat) (f : σ → Node → GoM (σ × List Msg × Option VErr))

/-- visitors.go:68-70 and 79-81, `Visit`. -/
def Visitor.visit {σ : Type} (v : Visitor σ) (s : VState σ) (n : Node) :
    GoM (VState σ × Option VErr) :=
  match v with
  | .func f =>
    match f s.user n with
    | .error p => .error p
    | .ok (u, r) => .ok ({ s with user := u }, r)
  | .message id f =>
    match f s.user n with
    | .error p => .error p
    | .ok (u, ms, r) =>
      .ok ({ user := u
             tapes := fun i => if i = id then (s.tapes i).addMsgs ms else s.tapes i }, r)

/-- visitors.go:34-61, `walkr`. -/
def walkr {σ : Type} (v : Visitor σ) (s : VState σ) (n : Node) : GoM (VState σ × Option VErr) :=
  match v.visit s n with
  | .error p => .error p
  | .ok (s, some .skip) => .ok (s, none)
  | .ok (s, some e) => .ok (s, some e)
  | .ok (s, none) =>
    match n with
    | .and l r =>
      match walkr v s l with
      | .error p => .error p
      | .ok (s, some .skip) => walkr v s r
      | .ok (s, some e) => .ok (s, some e)
      | .ok (s, none) => walkr v s r
    | .or l r =>
      match walkr v s l with
      | .error p => .error p
      | .ok (s, some .skip) => walkr v s r
      | .ok (s, some e) => .ok (s, some e)
      | .ok (s, none) => walkr v s r
    | .not e => walkr v s e
    | .subdoc _ e => walkr v s e
    | .expr .. => .ok (s, none)

/-- visitors.go:25-31, `walk`. -/
def walk {σ : Type} (v : Visitor σ) (s : VState σ) (n : Node) : GoM (VState σ × Option VErr) :=
  match walkr v s n with
  | .error p => .error p
  | .ok (s, some .skip) => .ok (s, none)
  | .ok (s, some .skipAll) => .ok (s, none)
  | .ok (s, r) => .ok (s, r)

variable (E : Env)

/-- parser.go:22-24: the validator as the first visitor. -/
def validatorVisitor (σ : Type) : Visitor σ :=
  .func fun u n =>
    match opValidator E n with
    | .error p => .error p
    | .ok r => .ok (u, r.map VErr.parse)

/-- parser.go:83-88, `genericParseError`. -/
def genericParseError (msg : Str) : PErr := ⟨noPosition, msg⟩

/-- `err.Error()` of the sentinel errors (visitors.go:10-13). -/
def VErr.text : VErr → Str
  | .skip => "skipping node".toList
  | .skipAll => "skipping all remaining nodes".toList
  | .parse e => e.msg
  | .other m => m

/-- parser.go:50-53: conversion of a walk error. -/
def VErr.toPErr : VErr → PErr
  | .parse e => e
  | e => genericParseError ("validation failure: ".toList ++ e.text)

/-- parser.go:55-61 and message.go:68-73: the tape error of a message visitor, if any. -/
def Visitor.tapeErr {σ : Type} (v : Visitor σ) (s : VState σ) : Option PErr :=
  match v with
  | .func _ => none
  | .message id _ => (s.tapes id).firstErr.map fun m => ⟨m.pos, m.text⟩

/-- parser.go:47-62, the loop over the visitors. -/
def runVisitors {σ : Type} (vs : List (Visitor σ)) (s : VState σ) (root : Node) :
    GoM (VState σ × Option PErr) :=
  match vs with
  | [] => .ok (s, none)
  | v :: vs =>
    match walk v s root with
    | .error p => .error p
    | .ok (s, some e) => .ok (s, some e.toPErr)
    | .ok (s, none) =>
      match v.tapeErr s with
      | some e => .ok (s, some e)
      | none => runVisitors vs s root

/-- parser.go:29-80, `ParseQueryReader` after the grammar returned `out` (an error already
converted by `GetParseError`, or a node): validator first, then the visitors of the options. -/
def finishParse {σ : Type} (vs : List (Visitor σ)) (s : VState σ) (out : Except PErr Node) :
    GoM (VState σ × Except PErr Node) :=
  match out with
  | .error e => .ok (s, .error e)
  | .ok root =>
    match runVisitors (validatorVisitor E σ :: vs) s root with
    | .error p => .error p
    | .ok (s, some e) => .ok (s, .error e)
    | .ok (s, none) => .ok (s, .ok root)

end Aql
