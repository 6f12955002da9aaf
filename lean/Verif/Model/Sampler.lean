import Verif.Model.Env
import Verif.Model.Float64
/-!
sampler/sampler.go.

The input bytes are modelled by what `buger/jsonparser` reports about them. jsonparser scans lazily: a
defect inside a value is only seen when that value is opened, so every object and array carries its
own end marker.
-/

namespace Aql

/-- A value as jsonparser iterates over it. -/
inductive SJson
  /-- string, number, boolean or null -/
  | scalar
  /-- jsonparser.Unknown -/
  | unknown
  /-- the members `ObjectEach` visits (unescaped keys); `closed = false`: it then returns an error -/
  | obj (members : List (Str × SJson)) (closed : Bool)
  /-- the elements `ArrayEach` visits; `closed = false`: it then returns an error -/
  | arr (items : List SJson) (closed : Bool)

/-- `dataType == jsonparser.Array`. -/
def SJson.isArr : SJson → Bool
  | .arr _ _ => true
  | _ => false

/-- The bytes given to `Sample`. -/
inductive SampleIn
  /-- no bytes -/
  | empty
  /-- rejected by the check of the first and last byte (sampler.go:48-61) -/
  | rejected
  /-- `{ … }` -/
  | object (members : List (Str × SJson)) (closed : Bool)
  /-- `[ … ]` -/
  | array (items : List SJson) (closed : Bool)

/-- Go `map[string]uint` (the counts are unbounded here). -/
abbrev KeyMap := List (Str × Nat)

/-- `m[k]++`. -/
def KeyMap.inc (m : KeyMap) (k : Str) : KeyMap :=
  match m with
  | [] => [(k, 1)]
  | (k', n) :: r => if k' = k then (k', n + 1) :: r else (k', n) :: KeyMap.inc r k

/-- sampler.go:23-27, `type Sampler`. `keys = none` is the nil map. -/
structure Sampler where
  maxDepth : Int
  keys : Option KeyMap
  totalDocs : Nat
  deriving DecidableEq

/-- sampler.go:31-38, `New`. -/
def Sampler.new (maxDepth : Int) : Sampler := ⟨maxDepth, some [], 0⟩

/-- sampler.go:83-90, what is appended to the path for a key. -/
def keyPart (key : Str) : Str :=
  if ' ' ∈ key then '.' :: '"' :: key ++ ['"'] else '.' :: key

/-- sampler.go:119, `s.keys[path.String()[1:]]++`: slicing an empty string and writing to a nil map
panic. -/
def record (path : Str) (keys : Option KeyMap) : GoM (Option KeyMap) :=
  match path with
  | [] => .error .outOfRange
  | _ :: k =>
    match keys with
    | none => .error .nilMap
    | some m => .ok (some (m.inc k))

mutual

/-- sampler.go:75-122, `sample`: the keys afterwards and whether an error is returned. The path buffer is
passed by value (`path.Truncate(pl)`, line 94, restores it after every member). -/
def sampleV (maxDepth : Int) : SJson → Str → Int → Option KeyMap → GoM (Option KeyMap × Bool)
  | .obj ms closed, path, depth, keys =>
    if depth > maxDepth then .ok (keys, false)
    else sampleMembers maxDepth ms closed path depth keys
  | .arr items closed, path, depth, keys =>
    if depth > maxDepth then .ok (keys, false)
    else sampleItems maxDepth items closed path depth keys false
  | .unknown, _, depth, keys => .ok (keys, !decide (depth > maxDepth))
  | .scalar, path, depth, keys =>
    if depth > maxDepth then .ok (keys, false)
    else
      match record path keys with
      | .error p => .error p
      | .ok keys' => .ok (keys', false)

/-- sampler.go:80-96, `ObjectEach` with its callback. -/
def sampleMembers (maxDepth : Int) : List (Str × SJson) → Bool → Str → Int → Option KeyMap →
    GoM (Option KeyMap × Bool)
  | [], closed, _, _, keys => .ok (keys, !closed)
  | (k, v) :: ms, closed, path, depth, keys =>
    match sampleV maxDepth v (path ++ keyPart k) (depth + 1) keys with
    | .error p => .error p
    | .ok (keys', true) => .ok (keys', true)
    | .ok (keys', false) => sampleMembers maxDepth ms closed path depth keys'

/-- sampler.go:97-114, `ArrayEach` with its callback; the flag is `aerr != nil`. -/
def sampleItems (maxDepth : Int) : List SJson → Bool → Str → Int → Option KeyMap → Bool →
    GoM (Option KeyMap × Bool)
  | [], closed, _, _, keys, aerr => .ok (keys, !closed || aerr)
  | v :: vs, closed, path, depth, keys, aerr =>
    if aerr then sampleItems maxDepth vs closed path depth keys aerr
    else if v.isArr then sampleItems maxDepth vs closed path depth keys aerr
    else
      match sampleV maxDepth v path depth keys with
      | .error p => .error p
      | .ok (keys', aerr') => sampleItems maxDepth vs closed path depth keys' aerr'

end

/-- sampler.go:66-72, the end of `Sample` for an accepted first and last byte. -/
def Sampler.finish (s : Sampler) (r : GoM (Option KeyMap × Bool)) : GoM (Sampler × Bool) :=
  match r with
  | .error p => .error p
  | .ok (_, true) => .ok ({ s with keys := none }, true)
  | .ok (keys, false) => .ok ({ s with keys := keys, totalDocs := s.totalDocs + 1 }, false)

/-- sampler.go:40-73, `Sample`: the sampler afterwards and whether an error is returned. -/
def Sampler.sample (s : Sampler) (d : SampleIn) : GoM (Sampler × Bool) :=
  match d with
  | .empty => .error .outOfRange
  | .rejected => .ok (s, true)
  | .object ms closed => s.finish (sampleV s.maxDepth (.obj ms closed) [] 0 s.keys)
  | .array items closed => s.finish (sampleV s.maxDepth (.arr items closed) [] 0 s.keys)

/-- The entries of a possibly nil map. -/
def Sampler.entries (s : Sampler) : KeyMap := s.keys.getD []

/-- sampler.go:124-130, `Keys` (in some order). -/
def Sampler.getKeys (s : Sampler) : List Str := s.entries.map (·.1)

/-- Go division of float64 values. -/
def F64.div : F64 → F64 → F64
  | .nan, _ => .nan
  | _, .nan => .nan
  | .inf _, .inf _ => .nan
  | .inf a, .fin b => .inf (a != decide (b < 0))
  | .fin _, .inf _ => .fin 0
  | .fin a, .fin b =>
    if b = 0 then (if a = 0 then .nan else .inf (decide (a < 0))) else toF64 (a / b)

/-- sampler.go:132-141, `KeysAtThreshold` (in some order). -/
def Sampler.keysAtThreshold (s : Sampler) (thresholdPercent : Int) : List Str :=
  let pct := (toF64 thresholdPercent).div (toF64 100)
  (s.entries.filter fun (_, count) =>
    pct.le ((toF64 (count : Nat)).div (toF64 (s.totalDocs : Nat)))).map (·.1)

/-- sampler.go:143-149, `Reset`: deletes every entry; a nil map stays nil. -/
def Sampler.reset (s : Sampler) : Sampler :=
  { s with keys := s.keys.map fun _ => [], totalDocs := 0 }

/-- sampler.go:151-153, `Scanned`. -/
def Sampler.scanned (s : Sampler) : Nat := s.totalDocs

mutual

/-- What jsonparser reports for a valid document. A key that cannot be unescaped ends the iteration with
an error. -/
def SJson.ofJson (E : Env) : Json → SJson
  | .obj ms => .obj (SJson.ofMembers E ms).1 (SJson.ofMembers E ms).2
  | .arr items => .arr (SJson.ofItems E items) true
  | .null => .scalar
  | .bool _ => .scalar
  | .num _ => .scalar
  | .str _ => .scalar

/-- The members of an object, as `ObjectEach` visits them, and whether it reaches the end. -/
def SJson.ofMembers (E : Env) : List (Str × Json) → List (Str × SJson) × Bool
  | [] => ([], true)
  | (raw, v) :: ms =>
    match E.unescape raw with
    | none => ([], false)
    | some k => ((k, SJson.ofJson E v) :: (SJson.ofMembers E ms).1, (SJson.ofMembers E ms).2)

/-- The items of an array, as `ArrayEach` visits them. -/
def SJson.ofItems (E : Env) : List Json → List SJson
  | [] => []
  | v :: vs => SJson.ofJson E v :: SJson.ofItems E vs

end

end Aql
