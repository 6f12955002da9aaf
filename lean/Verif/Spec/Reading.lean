import Verif.Spec.JsonText
import Verif.Model.Env
/-!
Paths in the values that are written as JSON.
-/

namespace Aql.Spec

/-- The library decodes what RFC 8259 says about the escapes in strings (other than those of surrogates). -/
def UnescapesJson (E : Env) : Prop := ∀ raw s, readString (raw ++ ['"']) = some (s, []) → E.unescape raw = some s

/-- The value of the first member with the name. -/
def FirstNamed (ms : List (Str × JOut)) (k : Str) (v : JOut) : Prop :=
  ∃ pre post, ms = pre ++ (k, v) :: post ∧ ∀ p ∈ pre, p.1 ≠ k

/-- The names lead from the value to the other, through objects and the elements of arrays. -/
inductive LiesUnder : JOut → List Str → JOut → Prop
  | last {ms k v} : FirstNamed ms k v → LiesUnder (.obj ms) [k] v
  | inObject {ms k ms' k' path v} : FirstNamed ms k (.obj ms') → LiesUnder (.obj ms') (k' :: path) v →
      LiesUnder (.obj ms) (k :: k' :: path) v
  | inArray {ms k items o k' path v} : FirstNamed ms k (.arr items) → o ∈ items → LiesUnder o (k' :: path) v →
      LiesUnder (.obj ms) (k :: k' :: path) v

/-- The names lead to the value or to an array with it. -/
def FoundUnder (v : JOut) (path : List Str) (w : JOut) : Prop :=
  LiesUnder v path w ∨ ∃ items, LiesUnder v path (.arr items) ∧ w ∈ items

end Aql.Spec
