import Verif.Spec.DocText
import Verif.Spec.JsonRead
/-!
What the documents encoded by JSON texts stand for.
-/

namespace Aql.Spec

mutual

/-- The document stands for the value: strings with the escapes of RFC 8259, section 7; numbers in base ten. -/
def DocFor : Json → JOut → Prop
  | .null, .null => True
  | .num raw, .num i => readInt raw = some (i, [])
  | .str raw, .str s => readString (raw ++ ['"']) = some (s, [])
  | .arr ds, .arr vs => DocsForItems ds vs
  | .obj ds, .obj ms => DocsForMembers ds ms
  | _, _ => False

/-- One document for each item, in their order. -/
def DocsForItems : List Json → List JOut → Prop
  | [], [] => True
  | d :: ds, v :: vs => DocFor d v ∧ DocsForItems ds vs
  | _, _ => False

/-- One member for each member, in their order. -/
def DocsForMembers : List (Str × Json) → List (Str × JOut) → Prop
  | [], [] => True
  | (raw, d) :: ds, (k, v) :: ms => readString (raw ++ ['"']) = some (k, []) ∧ DocFor d v ∧ DocsForMembers ds ms
  | _, _ => False

end

mutual

/-- How many arrays and objects are inside each other. -/
def joutNested : JOut → Nat
  | .arr vs => joutNestedItems vs + 1
  | .obj ms => joutNestedMembers ms + 1
  | _ => 0

def joutNestedItems : List JOut → Nat
  | [] => 0
  | v :: vs => max (joutNested v) (joutNestedItems vs)

def joutNestedMembers : List (Str × JOut) → Nat
  | [] => 0
  | (_, v) :: ms => max (joutNested v) (joutNestedMembers ms)

end

/-- The levels of a tree above its comparisons. -/
def treeLevels : Node → Nat
  | .and l r => max (treeLevels l) (treeLevels r) + 1
  | .or l r => max (treeLevels l) (treeLevels r) + 1
  | .not e => treeLevels e + 1
  | .subdoc _ e => treeLevels e + 1
  | .expr .. => 0

end Aql.Spec
