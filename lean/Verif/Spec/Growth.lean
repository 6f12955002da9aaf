import Verif.Spec.Query
/-!
Documents that hold more than others, and queries that can only gain or only lose by it.
-/

namespace Aql.Spec

/-- The second document is the first with members added at the ends of objects and elements added to arrays, anywhere and
any number of times. -/
inductive Grows : Json → Json → Prop
  | refl (a) : Grows a a
  | trans {a b c} : Grows a b → Grows b c → Grows a c
  | addMember {ms raw v} : Grows (.obj ms) (.obj (ms ++ [(raw, v)]))
  | addItem {pre x post} : Grows (.arr (pre ++ post)) (.arr (pre ++ x :: post))
  | inArr {pre a b post} : Grows a b → Grows (.arr (pre ++ a :: post)) (.arr (pre ++ b :: post))
  | inObj {pre raw a b post} : Grows a b → Grows (.obj (pre ++ (raw, a) :: post)) (.obj (pre ++ (raw, b) :: post))

/-- Every comparison of the query stands under an even number of `NOT`s (`true`), or under an odd number (`false`), and
none is `null`. -/
def Polar : Bool → Node → Prop
  | b, .and l r => Polar b l ∧ Polar b r
  | b, .or l r => Polar b l ∧ Polar b r
  | b, .not e => Polar (!b) e
  | b, .subdoc _ e => Polar b e
  | b, .expr op _ _ _ => b = true ∧ op ≠ .NUL

end Aql.Spec
