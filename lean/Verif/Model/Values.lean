import Verif.Model.Env
/-!
jsonmatcher/json_values.go: resolving a path in a document and reading scalars.
-/

namespace Aql

variable (E : Env)

/-- `jsonparser.Get` on an object: the first member whose unescaped key equals `k`. A key that
cannot be unescaped before that ends the search. -/
def getMember (k : Str) : List (Str × Json) → Option Json
  | [] => none
  | (raw, v) :: ms =>
    match E.unescape raw with
    | none => none
    | some key => if key = k then some v else getMember k ms

/-- `jsonparser.Get(data, k)` (json_values.go:90). On a non-object root nothing is found, except
that an array root with an empty key or a key starting with `[` is handled by the parameter. -/
def jsonGet (d : Json) (k : Str) : GetRes :=
  match d with
  | .obj ms => .ok (getMember E k ms)
  | .arr items =>
    match k with
    | [] => E.rootArrayGet items k
    | '[' :: _ => E.rootArrayGet items k
    | _ => .ok none
  | _ => .ok none

/-- json_values.go:84-112, `getValues`, case `jsonparser.Object`. The array case (lines 101-109),
which only recurses into object elements with the same path, is inlined for the child. An empty
path panics in `current()` (line 78-80). -/
def getObject : List Str → Json → GoM (List Json)
  | [], _ => .error .outOfRange
  | k :: rest, d =>
    match jsonGet E d k with
    | .error e => .error e
    | .ok none => .ok []
    | .ok (some c) =>
      match rest with
      | [] => .ok [c]
      | _ :: _ =>
        match c with
        | .obj _ => getObject rest c
        | .arr items =>
          flatMapGo (fun o => if o.isObj then getObject rest o else .ok []) items
        | _ => .ok []

/-- json_values.go:23-28, `getField`: the root is always treated as an object. -/
def getField (path : List Str) (root : Json) : GoM (List Json) := getObject E path root

/-- json_values.go:30-53, `scalarValues`: objects are skipped, arrays contribute their direct
elements that are neither objects nor arrays. -/
def scalarValues (vs : List Json) : List Json :=
  vs.flatMap fun v =>
    match v with
    | .obj _ => []
    | .arr items => items.filter (fun i => !i.isObj && !i.isArr)
    | v => [v]

/-- json_values.go:115-132, `getStringVal`. -/
def getStringVal : Json → Option Str
  | .str raw => E.unescape raw
  | .num raw =>
    match parseFloat E raw with
    | none => none
    | some f => some (formatFloat (isNegZero raw f) f)
  | _ => none

/-- json_values.go:134-144, `getNumberVal` (on the raw bytes, also for strings). -/
def getNumberVal : Json → Option F64
  | .str raw => parseFloat E raw
  | .num raw => parseFloat E raw
  | _ => none

/-- json_values.go:146-155, `getBoolVal`. -/
def getBoolVal : Json → Option Bool
  | .bool b => some b
  | _ => none

/-- json_values.go:157-170, `getDatetimeVal`. -/
def getDatetimeVal (v : Json) : Option Int :=
  match getStringVal E v with
  | none => none
  | some sv =>
    match E.dateparse sv with
    | none => none
    | some t => some (unixNano t)

/-- json_values.go:55-63, `listValues` (nothing calls it). -/
def listValues (vs : List Json) : List Json :=
  vs.flatMap fun v => match v with
    | .arr items => [.arr items]
    | _ => []

/-- One character of `(?i)false`: the letter in either case; `s` also folds with U+017F. -/
def foldsTo (p c : Char) : Bool := c == p || c == Char.ofNat (p.toNat - 32) || (p == 's' && c.toNat == 0x17F)

/-- json_values.go:182, `falsyString`: the pattern `(?i)^(?:0|false)$`. -/
def falsyString (s : Str) : Bool :=
  s == ['0'] || (s.length == 5 && ("false".toList.zip s).all fun x => foldsTo x.1 x.2)

/-- json_values.go:184-213, `getTruthyVal` (nothing calls it), on the raw bytes of a string. -/
def getTruthyVal : Json → Option Bool
  | .str raw => if raw.length = 0 ∨ falsyString raw = true then some false else some true
  | .num raw =>
    match parseFloat E raw with
    | none => none
    | some f => some (!F64.eq f (.fin 0))
  | .bool b => some b
  | .null => some false
  | _ => none

end Aql
