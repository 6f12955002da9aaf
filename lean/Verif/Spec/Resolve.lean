import Verif.Model.Env
/-!
Independent specification of field resolution (README "Paths", "Array Introspection").
Uses only the document type and the environment's string unescaping, none of the matcher's code.
-/

namespace Aql.Spec

/-- `v` is the value of the first member named `k`; all members before it have readable,
different names. -/
def FirstMember (E : Env) (ms : List (Str × Json)) (k : Str) (v : Json) : Prop :=
  ∃ pre raw post, ms = pre ++ (raw, v) :: post ∧ E.unescape raw = some k ∧
    ∀ p ∈ pre, ∃ k', E.unescape p.1 = some k' ∧ k' ≠ k

/-- `Resolves d path v`: following `path` from the object `d`, stepping through arrays of objects
between segments, reaches `v`. -/
inductive Resolves (E : Env) : Json → List Str → Json → Prop
  | last {ms k v} : FirstMember E ms k v → Resolves E (.obj ms) [k] v
  | inObject {ms k ms' k' path v} :
      FirstMember E ms k (.obj ms') → Resolves E (.obj ms') (k' :: path) v →
      Resolves E (.obj ms) (k :: k' :: path) v
  | inArray {ms k items o k' path v} :
      FirstMember E ms k (.arr items) → o ∈ items → Resolves E o (k' :: path) v →
      Resolves E (.obj ms) (k :: k' :: path) v

/-- Neither an object nor an array. -/
def IsScalar : Json → Prop
  | .obj _ => False
  | .arr _ => False
  | _ => True

/-- `ScalarUnder d path s`: `s` is a scalar the path resolves to, or a direct scalar element of an
array the path resolves to. -/
def ScalarUnder (E : Env) (d : Json) (path : List Str) (s : Json) : Prop :=
  IsScalar s ∧ (Resolves E d path s ∨ ∃ items, Resolves E d path (.arr items) ∧ s ∈ items)

end Aql.Spec
