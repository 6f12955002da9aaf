import Verif.Model.Values
import Verif.Model.JsonOut
/-!
jsonmatcher/field_stats.go: statistics about field values. Nothing in the repository calls this
code yet; it is exported.
-/

namespace Aql

/-- field_stats.go:15, `fieldNumExamples`. -/
def numExamples : Nat := 10

/-- field_stats.go:178-182, `ExampleList` (the mutex serialises the two methods). -/
structure ExampleList where
  examples : List Str
  idx : Nat
  deriving DecidableEq

/-- The zero value. -/
def ExampleList.zero : ExampleList := ⟨List.replicate numExamples [], 0⟩

/-- field_stats.go:184-192, `addExample`. -/
def ExampleList.add (el : ExampleList) (x : Str) : ExampleList :=
  let i := el.idx + 1
  let i := if i = el.examples.length then 0 else i
  ⟨el.examples.set i x, i⟩

/-- field_stats.go:194-205, `Get`. -/
def ExampleList.get (el : ExampleList) : List Str := el.examples.takeWhile (fun x => x != [])

/-- field_stats.go:172-176, `EncounteredStats`: `none` is a nil list. The counters do not overflow. -/
structure Encountered where
  seen : Nat
  matched : Nat
  examples : Option ExampleList

/-- field_stats.go:61-65, `FieldStats`: the twelve kinds of value in the order of
field_stats.go:29-43; `expecting = none` is a nil slice. -/
structure FieldStats where
  expecting : Option (List Str)
  sampled : Nat
  types : List Encountered

/-- field_stats.go:67-77, `NewFieldStats`: the example lists are put into copies that are dropped, and the
statistics returned are new ones. -/
def newFieldStats (expecting : Option (List Str)) : FieldStats :=
  ⟨expecting, 0, List.replicate 12 ⟨0, 0, none⟩⟩

/-- field_stats.go:104-123: the kind of a found value. -/
def fieldKind (inArray : Bool) (v : Json) : Nat :=
  (match v with
   | .str _ => 0
   | .num _ => 2
   | .obj _ => 4
   | .bool _ => 6
   | .arr _ => 8
   | .null => 10) + (if inArray then 1 else 0)

/-- field_stats.go:147-164, what `ObjectEach` adds to the text for the remaining members, `n` keys being
written. `ObjectEach` unescapes a key and stops at one that cannot be unescaped; the callback unescapes it
again. -/
def keyTexts (E : Env) (n : Nat) : List (Str × Json) → Str
  | [] => []
  | (raw, _) :: ms =>
    match E.unescape raw with
    | none => []
    | some key =>
      let comma := if n > 0 then ",".toList else []
      let keystr := match E.unescape key with
        | none => "<invalid key>".toList
        | some k => k
      comma ++ "\"".toList ++ keystr ++ "\"".toList ++
        (if n + 1 > 10 then [] else keyTexts E (n + 1) ms)

/-- field_stats.go:127-166, the text of the example for a value. It is used for strings, numbers and
objects only. -/
def exampleText (E : Env) : Json → Str
  | .str raw =>
    let sv := match E.unescape raw with
      | none => "invalid string".toList
      | some sv => sv
    if sv.length = 0 then "empty string".toList else sv
  | .num raw => raw
  | .obj ms => "<object with keys: ".toList ++ keyTexts E 0 ms ++ ">".toList
  | _ => []

/-- field_stats.go:124-168, the body of the loop of `mark` for one value; `ex` is the text of the
example. -/
def FieldStats.markOne (fs : FieldStats) (inArray : Bool) (v : Json) (ex : Str) : GoM FieldStats :=
  let k := fieldKind inArray v
  match fs.types[k]? with
  | none => .error .outOfRange
  | some e =>
    let e := { e with seen := e.seen + 1 }
    if k < 6 ∧ fs.sampled % 1000 = 0 then
      match e.examples with
      | none => .error .nilDeref
      | some el => .ok { fs with types := fs.types.set k { e with examples := some (el.add ex) } }
    else .ok { fs with types := fs.types.set k e }

/-- field_stats.go:101-170, `mark`; the index of the matching value is not used. -/
def FieldStats.mark (E : Env) (fs : FieldStats) (found : List Json) (_matchIdx : Int) (inArray : Bool) :
    GoM FieldStats :=
  found.foldlM (fun fs v => fs.markOne inArray v (exampleText E v)) { fs with sampled := fs.sampled + 1 }

/-- field_stats.go:45-58, `encounteredName`. -/
def encounteredName : List Str :=
  ["string", "string (in array)", "number", "number (in array)", "object", "object (in array)",
    "boolean", "boolean (in array)", "array", "array (in array)", "null", "null (in array)"].map String.toList

/-- encoding/json sorts the keys of a map by their bytes. -/
def sortKeys {α : Type} (m : List (Str × α)) : List (Str × α) :=
  m.foldr (fun x => ins x) []
where
  /-- Insertion before the first larger key. -/
  ins (x : Str × α) : List (Str × α) → List (Str × α)
    | [] => [x]
    | y :: ys => if x.1 < y.1 then x :: y :: ys else y :: ins x ys

/-- field_stats.go:83-92: the map of the kinds seen. -/
def FieldStats.encountered (fs : FieldStats) : GoM (List (Str × JOut)) :=
  flatMapGo (fun (x : Encountered × Str) =>
    if x.1.seen ≠ 0 then
      match x.1.examples with
      | none => .error .nilDeref
      | some el => .ok [(x.2, .obj (sortKeys [("times_seen".toList, .num x.1.seen),
          ("times_matched".toList, .num x.1.matched), ("examples".toList, .arr (el.get.map .str))]))]
    else .ok []) (fs.types.zip encounteredName)

/-- field_stats.go:79-97, `MarshalJson`: the value passed to `json.Marshal`. The name is not the one
encoding/json looks for. -/
def FieldStats.json (fs : FieldStats) : GoM JOut :=
  match fs.encountered with
  | .error e => .error e
  | .ok enc =>
    let expecting := match fs.expecting with
      | none => JOut.null
      | some ts => .arr (ts.map .str)
    let out := [("expecting".toList, expecting), ("times_seen".toList, .num fs.sampled)] ++
      (if enc.length > 0 then [("encountered".toList, .obj (sortKeys enc))] else [])
    .ok (.obj (sortKeys out))

/-- field_stats.go:79-97, `MarshalJson`. -/
def FieldStats.marshalJson (short : Bool) (fs : FieldStats) : GoM Str :=
  match fs.json with
  | .error e => .error e
  | .ok v => .ok (v.flat short)

end Aql
