import Verif.Spec.Sample
/-!
How much of a document the sampler has seen when it panics.
-/

namespace Aql.Spec

/-- The part of a document before the first scalar that is an element of the document itself. -/
inductive SeenPart : SampleIn → SampleIn → Prop
  | empty : SeenPart .empty .rejected
  | elements {before after closed} : (∀ v ∈ before, v ≠ .scalar) →
      SeenPart (.array (before ++ .scalar :: after) closed) (.array before true)

end Aql.Spec
