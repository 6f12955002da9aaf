import Verif.Spec.DocText
import Verif.Spec.Resolve
import Verif.Spec.Text
import Verif.Model.SampleBytes
/-!
What the sampler is to make of a JSON text.
-/

namespace Aql.Spec

/-- What is known of `buger/jsonparser` (library): it finds the members or the elements of a JSON text that begins with
its bracket. -/
structure Finds (E : Env) (L : ScanLib) : Prop where
  members {t ms} : Encodes ('{' :: t) (.obj ms) → L.members (utf8 ('{' :: t)) = SJson.ofMembers E ms
  items {t vs} : Encodes ('[' :: t) (.arr vs) → L.items (utf8 ('[' :: t)) = (SJson.ofItems E vs, true)

/-- There is no white space around the text. -/
def NoMargin (t : Str) : Prop :=
  ∀ c, t.head? = some c ∨ t.getLast? = some c → ¬ (c = ' ' ∨ c = '\t' ∨ c = '\n' ∨ c = '\r')

/-- Down to the depth, every name of an object can be decoded; arrays within arrays are not looked at. -/
inductive Decodes (E : Env) (maxDepth : Int) : Int → Json → Prop
  | deep {depth v} : maxDepth < depth → Decodes E maxDepth depth v
  | scalar {depth v} : IsScalar v → Decodes E maxDepth depth v
  | obj {depth ms} : (∀ m ∈ ms, E.unescape m.1 ≠ none) → (∀ m ∈ ms, Decodes E maxDepth (depth + 1) m.2) →
      Decodes E maxDepth depth (.obj ms)
  | arr {depth vs} : (∀ v ∈ vs, (∀ xs, v ≠ .arr xs) → Decodes E maxDepth depth v) → Decodes E maxDepth depth (.arr vs)

/-- The names lead from the value to a scalar: through objects, and through arrays that are not elements of arrays. -/
inductive NamesLead (E : Env) : Json → List Str → Prop
  | scalar {v} : IsScalar v → NamesLead E v []
  | member {ms raw v k path} : (raw, v) ∈ ms → E.unescape raw = some k → NamesLead E v path → NamesLead E (.obj ms) (k :: path)
  | element {vs v path} : v ∈ vs → (∀ xs, v ≠ .arr xs) → NamesLead E v path → NamesLead E (.arr vs) path

end Aql.Spec
