import Verif.Model.Messages
import Verif.Model.Peg
/-!
wasm/aqlparse/main.go and warnings.go: the parser as called from the browser. Not modelled: the
conversion of the argument from a JavaScript string to bytes, the JSON text of the tree (assumed not to
fail), `main`, and the web page.
-/

namespace Aql

/-- warnings.go:22. -/
def wasmSimRegexText : Str :=
  "Similarity comparison is no longer necessary for regular expressions and will eventually be removed. Please use the normal comparison operator - field:/<regular expression/".toList

/-- warnings.go:55. -/
def wasmTimeText : Str :=
  "exact matches on datetime values currently match the time EXACTLY, consider using [:~] or a numeric comparison".toList

variable (E : Env)

/-- warnings.go:19-57, the body of the loop for one value of a comparison at `epos`. Lines 36-52 are the
same as query_messages.go:39-55 (`reHints`). -/
def warnVal (op : Op) (field : List Str) (epos : Pos) (v : Val) : List Msg × Option VErr :=
  match v with
  | .regex sv src pos =>
    let m1 : List Msg := if op = .SIM then [⟨.warning, epos, wasmSimRegexText⟩] else []
    let re := trimSlash sv
    let m2 : List Msg := if "(?i)".toList.isPrefixOf re && !isASCII sv then
      [⟨.warning, pos, caseRegexText sv⟩] else []
    let re' := trimPrefix re "(?i)".toList
    let m3 : List Msg := if ".*".toList.isPrefixOf re' || hasSuffix re' ".*".toList then
      [⟨.hint, pos, dotStarText sv⟩] else []
    match E.reSyntax src with
    | none => (m1 ++ m2 ++ m3,
        some (.other "unexpected error parsing regular expression: ".toList))
    | some reg => (m1 ++ m2 ++ m3 ++ reHints E field src pos reg, none)
  | .time _ _ _ pos => (if op = .EQ then [⟨.warning, pos, wasmTimeText⟩] else [], none)
  | _ => ([], none)

/-- warnings.go:18-58, the loop. -/
def warnVals (op : Op) (field : List Str) (epos : Pos) : List Val → List Msg × Option VErr
  | [] => ([], none)
  | v :: vs =>
    match warnVal E op field epos v with
    | (ms, some e) => (ms, some e)
    | (ms, none) =>
      let r := warnVals op field epos vs
      (ms ++ r.1, r.2)

/-- warnings.go:13-61, `warningVisitor` (the text of the error value is abbreviated). -/
def warningFn : Node → List Msg × Option VErr
  | .expr op f vs p => warnVals E op f p vs
  | _ => ([], none)

/-- main.go:15, the message visitor (tape 0). -/
def warningVisitor : Visitor Unit :=
  .message 0 fun u n => .ok (u, warningFn E n)

/-- main.go:14-25, `parseAQL`: the tree and the messages, or the error. -/
def parseAQL (query : List UInt8) : Option (GoM (Except PErr (Node × List Msg))) :=
  (parseQuery E [warningVisitor E] ⟨(), fun _ => Tape.new⟩ query).map fun
    | .error p => .error p
    | .ok (_, .error e) => .ok (.error e)
    | .ok (s, .ok root) => .ok (.ok (root, (s.tapes 0).messages))

/-- An entry of `messages` as the page receives it: `highlight: [start, end]`. -/
structure JsMsg where
  type : MsgType
  msg : Str
  start : Int
  stop : Int
  deriving DecidableEq, Repr

/-- main.go:27-46, `errConvert` (every error of `parseAQL` is a ParseError here); `len` is the number
of bytes of the input. -/
def errConvert (e : PErr) (len : Nat) : JsMsg :=
  if "no match found".toList.isPrefixOf e.msg then
    ⟨.error, "incomplete query".toList, len - 1, len - 1 + 1⟩
  else ⟨.error, e.msg, e.pos.offset, e.pos.offset + e.pos.len⟩

/-- main.go:48-64, `msgConvert`. -/
def msgConvert (m : Msg) : JsMsg :=
  ⟨m.type, m.text, m.pos.offset, m.pos.offset + m.pos.len⟩

/-- main.go:66-86, `pWrap`: the tree, if any, and the messages. -/
def pWrap (query : List UInt8) : Option (GoM (Option Node × List JsMsg)) :=
  (parseAQL E query).map fun
    | .error p => .error p
    | .ok (.error e) => .ok (none, [errConvert e query.length])
    | .ok (.ok (root, ms)) => .ok (some root, ms.map msgConvert)

end Aql
