import Verif.Model.Api
import Verif.Model.Fmt
import Verif.Model.JsonOut
/-!
cmd/aqltest/main.go and cmd/aqlgraph/main.go: the command line programs. Arguments and files are byte
strings. Not modelled: the texts of operating system errors, the final line break of `log` and
`fmt.Println`, and writing the drawing itself.
-/

namespace Aql

/-- What the programs get from outside: `os.ReadFile`, whether and as which document bytes are JSON
(`json.Valid`), and whether writing an output file succeeds. -/
structure World where
  readFile : List UInt8 → Option (List UInt8)
  docOf : List UInt8 → Doc
  canWrite : List UInt8 → Bool

/-- A line of the log (standard error). -/
inductive LogLine
  | usage
  | osError
  | couldNotOpen
  | printed (text : Str) (panic : Option GoPanic)
  | invalidJSON
  | parseError (e : PErr)
  | unknownFormat (ext : List UInt8)
  deriving DecidableEq

/-- A finished run: the log, standard output, the exit code. -/
structure CmdRun where
  log : List LogLine
  out : List Str
  code : Nat
  deriving DecidableEq

/-- `log.Fatal` after some lines. -/
def fatal (before : List LogLine) (l : LogLine) : CmdRun := ⟨before ++ [l], [], 1⟩

/-- The bytes of `.aql`. -/
def dotAql : List UInt8 := [0x2e, 0x61, 0x71, 0x6c]

/-- strings.HasSuffix. -/
def endsWith (s suf : List UInt8) : Bool := suf.reverse.isPrefixOf s.reverse

/-- aqltest/main.go:32,37,48 with formatter.go:60-85: a message printed for a query, without a limit on its
width (`-1` becomes 0). -/
def printLine (query : Str) (spare : Nat) (kind : Option MsgType) (pos : Pos) (msg : Str) : LogLine :=
  let t := (printData query spare 0 kind pos msg).terminal
  .printed t.1 t.2

variable (E : Env) (W : World) (spare : Nat) (short : Bool)

/-- aqltest/main.go:22-30: the query text, from the argument or from the file it names. -/
def queryArg (a : List UInt8) : Option (List UInt8) :=
  if endsWith a dotAql then W.readFile a else some a

/-- aqltest/main.go:16-63, `main`. `none` would mean that the parser does not return, an error that the
program ends with a panic. -/
def aqltest (args : List (List UInt8)) : Option (GoM CmdRun) :=
  match args with
  | [_, a, file] =>
    match queryArg W a with
    | none => some (.ok (fatal [] .osError))
    | some query =>
      let q := (decode query).map Sym.rune
      (newMatcher E query).map fun
        | .error p => .error p
        | .ok (.error e) => .ok (fatal [] (printLine q spare none e.pos e.msg))
        | .ok (.ok (m, msgs)) =>
          match W.readFile file with
          | none => .ok (fatal [] .couldNotOpen)
          | some input =>
            let lines := msgs.map fun g => printLine q spare (some g.type) g.pos g.text
            match m.match E (W.docOf input) with
            | (_, .panic p) => .error p
            | (_, .invalidJSON) => .ok (fatal lines .invalidJSON)
            | (m', .result b) =>
              match m'.stats with
              | .error p => .error p
              | .ok s => .ok ⟨lines, [if b then "true".toList else "false".toList, statsText short s], 0⟩
  | _ => some (.ok (fatal [] .usage))

/-- path/filepath `Ext` (on systems where `/` separates): from the last dot, if no slash follows it. -/
def filepathExt (name : List UInt8) : List UInt8 :=
  let r := name.reverse.takeWhile fun b => b ≠ 0x2e ∧ b ≠ 0x2f
  match name.reverse.drop r.length with
  | 0x2e :: _ => 0x2e :: r.reverse
  | _ => []

/-- strings.ToLower on bytes that are ASCII letters; other bytes make the result differ from the two
known extensions in any case (no other character has an ASCII lower case letter of them). -/
def lowerBytes (s : List UInt8) : List UInt8 :=
  s.map fun b => if 0x41 ≤ b ∧ b ≤ 0x5a then b + 0x20 else b

/-- aqlgraph/main.go:30-33, the known formats of the drawing. -/
inductive Format
  | svg
  | dot
  deriving DecidableEq

/-- aqlgraph/main.go:29-36, the format of an extension. -/
def formatOf (ext : List UInt8) : Option Format :=
  if ext = [0x2e, 0x73, 0x76, 0x67] then some .svg
  else if ext = [0x2e, 0x64, 0x6f, 0x74] then some .dot
  else none

/-- The bytes of `query_graph.svg`. -/
def defaultOutput : List UInt8 :=
  [0x71, 0x75, 0x65, 0x72, 0x79, 0x5f, 0x67, 0x72, 0x61, 0x70, 0x68, 0x2e, 0x73, 0x76, 0x67]

/-- aqlgraph/main.go:12-41, `main`: the log, the exit code, and the file written with its format and the
graph drawn. -/
def aqlgraph (args : List (List UInt8)) :
    Option (GoM (CmdRun × Option (List UInt8 × Format × GState))) :=
  match args with
  | _ :: query :: rest =>
    let file := rest.head?.getD defaultOutput
    let ext := match rest.head? with
      | none => [0x2e, 0x73, 0x76, 0x67]
      | some f => lowerBytes (filepathExt f)
    (parseQuery (σ := Unit) E [] ⟨(), fun _ => Tape.new⟩ query).map fun
      | .error p => .error p
      | .ok (_, .error e) => .ok (fatal [] (.parseError e), none)
      | .ok (_, .ok root) =>
        match formatOf ext with
        | none => .ok (fatal [] (.unknownFormat ext), none)
        | some f =>
          if W.canWrite file then .ok (⟨[], [], 0⟩, some (file, f, queryGraph E root))
          else .ok (fatal [] .osError, none)
  | _ => some (.ok (fatal [] .usage, none))

end Aql
