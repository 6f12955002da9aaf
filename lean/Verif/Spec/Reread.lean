import Verif.Spec.Layout
/-!
Which comparisons can be written again from their printed form.
-/

namespace Aql.Spec

variable (E : Env)

/-- Characters whose Go escape is also an escape of the query language: all but the control
characters without a one-letter escape and the unprintable ones outside the basic plane. -/
def WritableChar (c : Char) : Prop :=
  (32 ≤ c.toNat ∧ c.toNat ≠ 127 ∧ (c.toNat < 0x10000 ∨ E.isPrint c = true)) ∨
    c.toNat ∈ [8, 9, 10, 12, 13]

/-- A bare name, or one that is recognisably in need of quotes. -/
def WritableName (x : Str) : Prop :=
  (x ≠ [] ∧ ∀ c ∈ x, FieldChar E c) ∨
  ((∃ c ∈ x, c = ' ' ∨ c = '.' ∨ c = '"') ∧ ∀ c ∈ x, WritableChar E c)

/-- A value of the language whose printed form denotes it: a string without odd control characters, a number with a
fraction, a pattern without slashes of its own, and every value of the other types. -/
def WritableVal (v : Val) : Prop :=
  (∃ t w, Lit E [] t w ∧ unplaced w = unplaced v) ∧
  match v with
  | .str x _ => ∀ c ∈ x, WritableChar E c
  | .float f _ _ => ∀ i : ℤ, f ≠ .fin i
  | .regex u _ _ => ∃ s, RegexBody s ∧ u = '/' :: (s ++ ['/']) ∧ Unescaped u u
  | _ => True

end Aql.Spec
