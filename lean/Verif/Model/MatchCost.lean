import Verif.Model.Matcher
/-!
What `Match` costs: json_values.go and nodes.go once more, counting what is read of the document. The unit is one
character, value or call. A comparison of one scalar counts as reading it once; what the libraries for regular
expressions, numbers and dates do with each character (for a regular expression this grows with the pattern) is not
counted.
-/

namespace Aql

mutual

/-- The size of a value: its characters and one for each value, member and element. -/
def Json.weight : Json → Nat
  | .null => 1
  | .bool _ => 1
  | .num raw => raw.length + 1
  | .str raw => raw.length + 1
  | .arr items => Json.weightItems items + 1
  | .obj ms => Json.weightMembers ms + 1

/-- The elements of an array. -/
def Json.weightItems : List Json → Nat
  | [] => 0
  | v :: vs => v.weight + 1 + Json.weightItems vs

/-- The members of an object. -/
def Json.weightMembers : List (Str × Json) → Nat
  | [] => 0
  | (raw, v) :: ms => raw.length + v.weight + 1 + Json.weightMembers ms

end

variable (E : Env)

/-- `jsonparser.Get` on an object reads the members up to the one it finds, the values it skips included. -/
def memberCost (k : Str) : List (Str × Json) → Nat
  | [] => 0
  | (raw, v) :: ms => raw.length + v.weight + 1 +
    match E.unescape raw with
    | none => 0
    | some key => if key = k then 0 else memberCost k ms

/-- `jsonparser.Get(data, k)` (json_values.go:90); on anything but an object all of it may be read. -/
def getCost (d : Json) (k : Str) : Nat :=
  match d with
  | .obj ms => memberCost E k ms + 1
  | d => d.weight

/-- A loop that adds up costs and appends results, until a panic. -/
def flatMapCost {α β : Type} (f : α → Nat × GoM (List β)) : List α → Nat × GoM (List β)
  | [] => (0, .ok [])
  | x :: xs =>
    match f x with
    | (n, .error e) => (n, .error e)
    | (n, .ok ys) =>
      match flatMapCost f xs with
      | (n', .error e) => (n + n', .error e)
      | (n', .ok zs) => (n + n', .ok (ys ++ zs))

/-- json_values.go:84-112, `getValues` as in `getObject`; `ArrayEach` reads the array once (lines 101-109). -/
def getObjectCost : List Str → Json → Nat × GoM (List Json)
  | [], _ => (0, .error .outOfRange)
  | k :: rest, d =>
    match jsonGet E d k with
    | .error e => (getCost E d k, .error e)
    | .ok none => (getCost E d k, .ok [])
    | .ok (some c) =>
      match rest with
      | [] => (getCost E d k, .ok [c])
      | _ :: _ =>
        match c with
        | .obj _ =>
          let r := getObjectCost rest c
          (getCost E d k + r.1, r.2)
        | .arr items =>
          let r := flatMapCost (fun o => if o.isObj then getObjectCost rest o else (0, .ok [])) items
          (getCost E d k + c.weight + r.1, r.2)
        | _ => (getCost E d k, .ok [])

/-- A loop that stops at the first success, adding up costs. -/
def anyCost {α : Type} (cost : α → Nat) (p : α → GoM Bool) : List α → Nat
  | [] => 0
  | x :: xs =>
    match p x with
    | .ok false => cost x + anyCost cost p xs
    | _ => cost x

/-- json_values.go:30-53, `scalarValues`: arrays are read once, other values are copied. -/
def scalarsCost : List Json → Nat
  | [] => 0
  | .arr items :: vs => (Json.arr items).weight + scalarsCost vs
  | _ :: vs => 1 + scalarsCost vs

/-- `matches(field)` (see `FieldExpr.matches`). -/
def FieldExpr.cost (e : FieldExpr) (values : List Json) : Nat :=
  match e with
  | .exists_ => 1
  | .null => anyCost (fun _ => 1) (fun v => .ok (!v.isNull)) values
  | e => scalarsCost values + anyCost Json.weight (e.scalarTest E) (scalarValues values)

/-- nodes.go:100-108, one comparison: the cost and the result. -/
def exprCost (path : List Str) (exprs : List FieldExpr) (root : Json) : Nat × GoM Bool :=
  match getObjectCost E path root with
  | (n, .error e) => (n, .error e)
  | (n, .ok values) =>
    if 0 < values.length then
      (n + anyCost (fun m => m.cost E values) (fun m => m.matches E values) exprs, anyGo (fun m => m.matches E values) exprs)
    else (n, .ok false)

/-- nodes.go:18-24,35-41,52-58,98-114, `result`: the cost and the result. Every node counts for one. -/
def BoolNode.cost (n : BoolNode) (root : Json) : Nat × GoM Bool :=
  match n with
  | .and l r =>
    match l.cost root with
    | (n1, .error e) => (n1 + 1, .error e)
    | (n1, .ok false) => (n1 + 1, .ok false)
    | (n1, .ok true) => let r2 := r.cost root; (n1 + r2.1 + 1, r2.2)
  | .or l r =>
    match l.cost root with
    | (n1, .error e) => (n1 + 1, .error e)
    | (n1, .ok true) => (n1 + 1, .ok true)
    | (n1, .ok false) => let r2 := r.cost root; (n1 + r2.1 + 1, r2.2)
  | .not e =>
    match e.cost root with
    | (n1, .error e) => (n1 + 1, .error e)
    | (n1, .ok b) => (n1 + 1, .ok (!b))
  | .expr path exprs _ => let r := exprCost E path exprs root; (r.1 + 1, r.2)
  | .nil => (1, .error .nilDeref)

end Aql
