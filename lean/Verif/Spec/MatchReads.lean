import Verif.Model.MatchCost
/-!
Independent account of where the value of a path is searched: name by name, through all objects that the names
before it lead to. Nothing is said about the order.
-/

namespace Aql.Spec

variable (E : Env)

/-- A member at which the search for a name ends: it has the name, or a name that cannot be read. -/
def endsSearch (k : Str) (m : Str × Json) : Bool := E.unescape m.1 == none || E.unescape m.1 == some k

/-- The members that a search for a name reads. -/
def membersRead (k : Str) (ms : List (Str × Json)) : List (Str × Json) := ms.take (ms.findIdx (endsSearch E k) + 1)

/-- What a name leads to in an object. -/
def leadsTo (k : Str) : Json → Option Json
  | .obj ms => match ms.find? (endsSearch E k) with
    | some m => if E.unescape m.1 = some k then some m.2 else none
    | none => none
  | _ => none

/-- The objects that a name leads to in an object: one, or those in an array. -/
def objectsUnder (k : Str) (o : Json) : List Json :=
  match leadsTo E k o with
  | some (.obj ms) => [.obj ms]
  | some (.arr items) => items.filter Json.isObj
  | _ => []

/-- The array that a name leads to in an object, if it is one. -/
def arrayUnder (k : Str) (o : Json) : List Json :=
  match leadsTo E k o with
  | some (.arr items) => [.arr items]
  | _ => []

/-- The objects that some names lead to. -/
def objectsAt (d : Json) (names : List Str) : List Json := names.foldl (fun os k => os.flatMap (objectsUnder E k)) [d]

/-- The members of an object, or none. -/
def membersOf : Json → List (Str × Json)
  | .obj ms => ms
  | _ => []

/-- A path is searched name by name: in each object at that point the members read, and the arrays that are gone
through to the next name. `size` is the size of a value. -/
def searchReads (size : Json → Nat) (d : Json) (path : List Str) : Nat :=
  ((List.range path.length).map fun i =>
    ((objectsAt E d (path.take i)).map fun o =>
      1 + ((membersRead E (path.getD i []) (membersOf o)).map fun m => m.1.length + size m.2 + 1).sum +
      if i + 1 < path.length then ((arrayUnder E (path.getD i []) o).map size).sum else 0).sum).sum

/-- The beginning of a list through the first element that passes a test, or all of it. -/
def through {α : Type} (p : α → Bool) (xs : List α) : List α := xs.take (xs.findIdx p + 1)

/-- Values under the last name of a path, from several objects. -/
def finals (os : List Json) (path : List Str) : List Json :=
  (path.dropLast.foldl (fun os k => os.flatMap (objectsUnder E k)) os).filterMap (leadsTo E (path.getLastD []))

/-- What one test reads of the values of a path: all values to list the scalars, then scalars until one passes. -/
def testReads (values : List Json) : FieldExpr → Nat
  | .exists_ => 1
  | .null => (through (fun v => !v.isNull) values).length
  | e => (values.map fun v => if v.isArr then v.weight else 1).sum +
      ((through (fun s => decide (e.scalarTest E s ≠ .ok false)) (scalarValues values)).map Json.weight).sum

/-- The node at an address. -/
def partAt : BoolNode → Addr → Option BoolNode
  | b, [] => some b
  | .and l _, false :: a => partAt l a
  | .and _ r, true :: a => partAt r a
  | .or l _, false :: a => partAt l a
  | .or _ r, true :: a => partAt r a
  | .not e, _ :: a => partAt e a
  | _, _ :: _ => none

/-- What a node reads itself: nothing but itself for a connective; for a comparison the search for its path and, if it
leads to anything, the tests until one passes. -/
def ownReads (d : Json) : BoolNode → Nat
  | .expr path es _ => 1 + searchReads E Json.weight d path +
      if finals E [d] path = [] then 0
      else ((through (fun e => decide (e.matches E (finals E [d] path) ≠ .ok false)) es).map (testReads E (finals E [d] path))).sum
  | _ => 1

/-- The address of a node that was checked. -/
def checkedAddr : Tick → Option Addr
  | .checked a => some a
  | .matched _ => none

/-- What the checked nodes of a tree read. -/
def checkedReads (d : Json) (root : BoolNode) (ts : List Tick) : Nat :=
  ((ts.filterMap checkedAddr).map fun a => ((partAt root a).map (ownReads E d)).getD 0).sum

end Aql.Spec
