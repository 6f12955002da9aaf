import Verif.Model.Json
import Mathlib.Data.List.Rotate
import Verif.Model.JsonOut
/-!
What a report about the values of a field should contain, as a function of the samples alone.
-/

namespace Aql.Spec

/-- The six kinds of JSON values, in alphabetical order. -/
inductive ValueKind
  | array | boolean | null | number | object | string
  deriving DecidableEq

/-- The kind of a value. -/
def valueKind : Json → ValueKind
  | .arr _ => .array
  | .bool _ => .boolean
  | .null => .null
  | .num _ => .number
  | .obj _ => .object
  | .str _ => .string

/-- The kinds with their names, the kind in arrays after the kind outside, in alphabetical order. -/
def reportNames : List ((ValueKind × Bool) × Str) :=
  [((.array, false), "array".toList), ((.array, true), "array (in array)".toList),
   ((.boolean, false), "boolean".toList), ((.boolean, true), "boolean (in array)".toList),
   ((.null, false), "null".toList), ((.null, true), "null (in array)".toList),
   ((.number, false), "number".toList), ((.number, true), "number (in array)".toList),
   ((.object, false), "object".toList), ((.object, true), "object (in array)".toList),
   ((.string, false), "string".toList), ((.string, true), "string (in array)".toList)]

/-- A value that was marked, whether it was found in an array, and the number of its sample from one. -/
structure Marked where
  value : Json
  inArray : Bool
  sample : Nat

/-- All values of the samples; the first sample has the number `n`. -/
def markedFrom (n : Nat) : List (List Json × Int × Bool) → List Marked
  | [] => []
  | (vs, _, b) :: ss => vs.map (fun v => ⟨v, b, n⟩) ++ markedFrom (n + 1) ss

/-- The marked values of one kind. -/
def ofKind (x : ValueKind × Bool) (ms : List Marked) : List Marked :=
  ms.filter fun m => (valueKind m.value, m.inArray) = x

/-- Examples are kept for numbers, objects and strings, out of every thousandth sample. -/
def sampledValues (x : ValueKind × Bool) (ms : List Marked) : List Json :=
  ((ofKind x ms).filter fun m => (x.1 = .number ∨ x.1 = .object ∨ x.1 = .string) ∧ m.sample % 1000 = 0).map
    Marked.value

/-- The keys of an object: those before the first that cannot be unescaped. -/
def readableKeys (E : Env) : List (Str × Json) → List Str
  | [] => []
  | (raw, _) :: ms => (E.unescape raw).elim [] fun k => k :: readableKeys E ms

/-- A key as it is named in an example: unescaped once more, in quotation marks. -/
def namedKey (E : Env) (k : Str) : Str := '"' :: ((E.unescape k).getD "<invalid key>".toList ++ ['"'])

/-- The text kept as the example of a value. -/
def exampleOf (E : Env) : Json → Str
  | .str raw =>
    match E.unescape raw with
    | none => "invalid string".toList
    | some [] => "empty string".toList
    | some s => s
  | .num raw => raw
  | .obj ms => "<object with keys: ".toList ++
      [','].intercalate (((readableKeys E ms).take 11).map (namedKey E)) ++ ['>']
  | _ => []

/-- The ten last texts as the ring of examples shows them: nothing before there are ten. -/
def ringShown (xs : List Str) : List Str :=
  if xs.length < 10 then [] else (xs.drop (xs.length - 10)).rotate (9 - xs.length % 10)

/-- The report: the kinds seen with their number of values, what was expected, and the number of samples.
Matches are not counted. -/
def fieldReport (E : Env) (expecting : Option (List Str)) (samples : List (List Json × Int × Bool)) : JOut :=
  let ms := markedFrom 1 samples
  .obj ((if ms = [] then [] else
      [("encountered".toList, .obj (reportNames.filterMap fun (x, name) =>
        if ofKind x ms = [] then none
        else some (name, .obj [("examples".toList,
            .arr ((ringShown ((sampledValues x ms).map (exampleOf E))).map .str)),
          ("times_matched".toList, .num 0), ("times_seen".toList, .num (ofKind x ms).length)])))]) ++
    [("expecting".toList, match expecting with
      | none => .null
      | some ts => .arr (ts.map .str)), ("times_seen".toList, .num samples.length)])

end Aql.Spec
