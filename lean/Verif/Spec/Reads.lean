import Verif.Model.Reader
/-!
What a reader delivers, for C120.
-/

namespace Aql.Spec

/-- From its call `i` on the reader delivers the bytes `b` and ends with `e`. -/
inductive Delivers (r : Nat → ReadRes) : Nat → List UInt8 → ReadEnd → Prop
  | last {i e} : (r i).err = some e → Delivers r i (r i).bytes e
  | more {i b e} : (r i).err = none → Delivers r (i + 1) b e → Delivers r i ((r i).bytes ++ b) e

end Aql.Spec
