import Verif.Spec.Query
/-!
Documents that say the same with other spellings.
-/

namespace Aql.Spec

variable (E : Env)

/-- Two spellings of the same number: they are read as the same double, and if it is zero, have the same sign. -/
def SameNumber (raw raw' : Str) : Prop :=
  (∀ f, ReadAs E raw f ↔ ReadAs E raw' f) ∧
    (ReadAs E raw (.fin 0) → ((∃ t, raw = '-' :: t) ↔ ∃ t, raw' = '-' :: t))

/-- Two spellings of the same string. -/
def SameString (raw raw' : Str) : Prop := E.unescape raw = E.unescape raw'

/-- Two strings that are the same number as they are spelled, or both none. (NaN compares with nothing.) -/
def SameDigits (raw raw' : Str) : Prop := ∀ f, f ≠ .nan → (ReadAs E raw f ↔ ReadAs E raw' f)

/-- Documents that differ, anywhere, only in the spelling of numbers, of member names, and of strings as far as `S`
allows. -/
inductive Respelled (S : Str → Str → Prop) : Json → Json → Prop
  | refl (a) : Respelled S a a
  | symm {a b} : Respelled S a b → Respelled S b a
  | trans {a b c} : Respelled S a b → Respelled S b c → Respelled S a c
  | num {raw raw'} : SameNumber E raw raw' → Respelled S (.num raw) (.num raw')
  | str {raw raw'} : S raw raw' → Respelled S (.str raw) (.str raw')
  | name {pre raw raw' v post} : SameString E raw raw' →
      Respelled S (.obj (pre ++ (raw, v) :: post)) (.obj (pre ++ (raw', v) :: post))
  | inArr {pre a b post} : Respelled S a b → Respelled S (.arr (pre ++ a :: post)) (.arr (pre ++ b :: post))
  | inObj {pre raw a b post} : Respelled S a b →
      Respelled S (.obj (pre ++ (raw, a) :: post)) (.obj (pre ++ (raw, b) :: post))

end Aql.Spec
