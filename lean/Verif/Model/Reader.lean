import Verif.Model.Peg
/-!
parser.go:16-41 and internal/grammar/parser_gen.go:2424-2431: queries that are read from an `io.Reader`.

A reader is the sequence of the results of its calls. How large the buffers are that `io.ReadAll` offers is not
modelled: the reader says itself how many bytes a call returns.
-/

namespace Aql

/-- The error returned by a call of `Read`: `io.EOF`, or another one with its text. -/
inductive ReadEnd
  | eof
  | failed (msg : Str)
  deriving DecidableEq

/-- The result of one call of `Read`; there can be bytes together with an error. -/
structure ReadRes where
  bytes : List UInt8
  err : Option ReadEnd

/-- `ioutil.ReadAll` (library), called in parser_gen.go:2425: at most `n` calls of `Read` from call `i` on, `acc` being
read. `none` if the reader has not ended by then. -/
def readAllFrom (r : Nat → ReadRes) : Nat → Nat → List UInt8 → Option (Except Str (List UInt8))
  | 0, _, _ => none
  | n + 1, i, acc =>
    match (r i).err with
    | none => readAllFrom r n (i + 1) (acc ++ (r i).bytes)
    | some .eof => some (.ok (acc ++ (r i).bytes))
    | some (.failed m) => some (.error m)

/-- parser_gen.go:69-72, `GetParseError` on an error that is not the parser's own. -/
def foreignError (msg : Str) : PErr := ⟨⟨0, 0, -1, 0⟩, msg⟩

variable (E : Env)

/-- parser.go:20-81, `ParseQueryReader`, with parser_gen.go:2424-2431, if the reader ends within `n` calls. -/
def parseQueryReader {σ : Type} (vs : List (Visitor σ)) (s : VState σ) (r : Nat → ReadRes) (n : Nat) :
    Option (GoM (VState σ × Except PErr Node)) :=
  match readAllFrom r n 0 [] with
  | none => none
  | some (.error m) => some (finishParse E vs s (.error (foreignError m)))
  | some (.ok b) => (grammarOut E (decode b)).map (finishParse E vs s)

end Aql
