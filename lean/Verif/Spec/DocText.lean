import Verif.Model.Json
/-!
The grammar of JSON texts (RFC 8259), as rules: which texts a value may be written as.
-/

namespace Aql.Spec

/-- RFC 8259, section 2. -/
def Blanks (w : Str) : Prop := ∀ c ∈ w, c = ' ' ∨ c = '\t' ∨ c = '\n' ∨ c = '\r'

/-- RFC 8259, section 7: what may be between quotation marks. -/
inductive StringBody : Str → Prop
  | nil : StringBody []
  | plain {c s} : 32 ≤ c.toNat → c ≠ '"' → c ≠ '\\' → StringBody s → StringBody (c :: s)
  | short {e s} : e ∈ ['"', '\\', '/', 'b', 'f', 'n', 'r', 't'] → StringBody s → StringBody ('\\' :: e :: s)
  | hex {a b c d s} : (∀ h ∈ [a, b, c, d], ('0' ≤ h ∧ h ≤ '9') ∨ ('a' ≤ h ∧ h ≤ 'f') ∨ ('A' ≤ h ∧ h ≤ 'F')) →
      StringBody s → StringBody ('\\' :: 'u' :: a :: b :: c :: d :: s)

/-- One or more digits. -/
def SomeDigits (ds : Str) : Prop := ds ≠ [] ∧ ∀ c ∈ ds, '0' ≤ c ∧ c ≤ '9'

/-- RFC 8259, section 6. -/
def NumberBody (raw : Str) : Prop :=
  ∃ sign whole fraction exponent, raw = sign ++ whole ++ fraction ++ exponent ∧
    (sign = [] ∨ sign = ['-']) ∧
    (whole = ['0'] ∨ (SomeDigits whole ∧ whole.head? ≠ some '0')) ∧
    (fraction = [] ∨ ∃ ds, SomeDigits ds ∧ fraction = '.' :: ds) ∧
    (exponent = [] ∨ ∃ e sg ds, (e = 'e' ∨ e = 'E') ∧ (sg = [] ∨ sg = ['+'] ∨ sg = ['-']) ∧ SomeDigits ds ∧
      exponent = e :: sg ++ ds)

/-- What a text may stand for. -/
inductive Thing
  | value (v : Json)
  | items (vs : List Json)
  | members (ms : List (Str × Json))

/-- RFC 8259, sections 3 to 5. Elements and members with the white space around them. -/
inductive Writes : Str → Thing → Prop
  | null : Writes "null".toList (.value .null)
  | true : Writes "true".toList (.value (.bool true))
  | false : Writes "false".toList (.value (.bool false))
  | num {raw} : NumberBody raw → Writes raw (.value (.num raw))
  | str {raw} : StringBody raw → Writes ('"' :: raw ++ ['"']) (.value (.str raw))
  | noItems {w} : Blanks w → Writes ('[' :: w ++ [']']) (.value (.arr []))
  | arr {s vs} : Writes s (.items vs) → Writes ('[' :: s ++ [']']) (.value (.arr vs))
  | noMembers {w} : Blanks w → Writes ('{' :: w ++ ['}']) (.value (.obj []))
  | obj {s ms} : Writes s (.members ms) → Writes ('{' :: s ++ ['}']) (.value (.obj ms))
  | item {w t w' v} : Blanks w → Writes t (.value v) → Blanks w' → Writes (w ++ t ++ w') (.items [v])
  | moreItems {w t w' v s vs} : Blanks w → Writes t (.value v) → Blanks w' → Writes s (.items vs) →
      Writes (w ++ t ++ w' ++ ',' :: s) (.items (v :: vs))
  | member {w raw w1 w2 t w' v} : Blanks w → StringBody raw → Blanks w1 → Blanks w2 → Writes t (.value v) → Blanks w' →
      Writes (w ++ '"' :: raw ++ '"' :: w1 ++ ':' :: w2 ++ t ++ w') (.members [(raw, v)])
  | moreMembers {w raw w1 w2 t w' v s ms} : Blanks w → StringBody raw → Blanks w1 → Blanks w2 → Writes t (.value v) →
      Blanks w' → Writes s (.members ms) →
      Writes (w ++ '"' :: raw ++ '"' :: w1 ++ ':' :: w2 ++ t ++ w' ++ ',' :: s) (.members ((raw, v) :: ms))

/-- A JSON text and the document it encodes. -/
def Encodes (s : Str) (d : Json) : Prop := ∃ w t w', s = w ++ t ++ w' ∧ Blanks w ∧ Blanks w' ∧ Writes t (.value d)

mutual

/-- How many arrays and objects are inside each other. -/
def nestedIn : Json → Nat
  | .arr vs => nestedInItems vs + 1
  | .obj ms => nestedInMembers ms + 1
  | _ => 0

def nestedInItems : List Json → Nat
  | [] => 0
  | v :: vs => max (nestedIn v) (nestedInItems vs)

def nestedInMembers : List (Str × Json) → Nat
  | [] => 0
  | (_, v) :: ms => max (nestedIn v) (nestedInMembers ms)

end

mutual

/-- Strings and numbers are written as JSON has it. -/
def rawsOk : Json → Prop
  | .num raw => NumberBody raw
  | .str raw => StringBody raw
  | .arr vs => rawsOkItems vs
  | .obj ms => rawsOkMembers ms
  | _ => True

def rawsOkItems : List Json → Prop
  | [] => True
  | v :: vs => rawsOk v ∧ rawsOkItems vs

def rawsOkMembers : List (Str × Json) → Prop
  | [] => True
  | (raw, v) :: ms => StringBody raw ∧ rawsOk v ∧ rawsOkMembers ms

end

/-- The nesting of parts of values. -/
def Thing.nested : Thing → Nat
  | .value v => nestedIn v
  | .items vs => nestedInItems vs
  | .members ms => nestedInMembers ms

/-- Whether the text goes on inside a string. -/
inductive Place
  | outside
  | inside
  | escaped

/-- The text without the white space outside strings. -/
def squeeze : Place → Str → Str
  | _, [] => []
  | .outside, c :: s =>
    if c = '"' then c :: squeeze .inside s
    else if c = ' ' ∨ c = '\t' ∨ c = '\n' ∨ c = '\r' then squeeze .outside s
    else c :: squeeze .outside s
  | .inside, c :: s => c :: squeeze (if c = '"' then .outside else if c = '\\' then .escaped else .inside) s
  | .escaped, c :: s => c :: squeeze .inside s

end Aql.Spec
