import Verif.Model.Sampler
/-!
What the sampler is meant to collect (sampler.go:16-22), independent of its code.
-/

namespace Aql.Spec

/-- Arrays. -/
def isList : SJson → Bool
  | .arr _ _ => true
  | _ => false

@[simp] theorem isList_eq (v : SJson) : isList v = v.isArr := by cases v <;> rfl

/-- `path` leads from the value through objects, and through arrays that are not elements of arrays,
to a scalar. -/
inductive LeafPath : SJson → List Str → Prop
  | scalar : LeafPath .scalar []
  | member {ms closed k v path} : (k, v) ∈ ms → LeafPath v path → LeafPath (.obj ms closed) (k :: path)
  | element {items closed v path} : v ∈ items → isList v = false → LeafPath v path →
      LeafPath (.arr items closed) path

/-- `path` leads to a scalar of the document. -/
def DocLeaf : SampleIn → List Str → Prop
  | .object ms closed, path => LeafPath (.obj ms closed) path
  | .array items closed, path => LeafPath (.arr items closed) path
  | _, _ => False

/-- A key as written in a query path: quoted when it has a space. -/
def segment (k : Str) : Str := if ' ' ∈ k then ['"'] ++ k ++ ['"'] else k

/-- A path as written in a query. -/
def dotted (path : List Str) : Str := List.intercalate ['.'] (path.map segment)

/-- The document has a scalar under the written key, at most `maxDepth` segments deep. -/
def HasKey (maxDepth : Int) (d : SampleIn) (key : Str) : Prop :=
  ∃ path, DocLeaf d path ∧ (path.length : Int) ≤ maxDepth ∧ dotted path = key

/-- No arrays, no repeated keys in an object, no dots in keys. -/
inductive Simple : SJson → Prop
  | scalar : Simple .scalar
  | obj {ms closed} : (ms.map (·.1)).Nodup → (∀ m ∈ ms, '.' ∉ m.1) → (∀ m ∈ ms, Simple m.2) →
      Simple (.obj ms closed)

/-- A document without arrays, repeated keys and dots in keys. -/
def SimpleDoc : SampleIn → Prop
  | .object ms closed => Simple (.obj ms closed)
  | _ => False

end Aql.Spec
