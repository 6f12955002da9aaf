import Verif.Spec.ErrorText
/-!
Expectations that a text meets.
-/

namespace Aql.Spec

variable (E : Env)

/-- The text that follows meets the expectation `w`: it begins with what is expected, or ends as expected. -/
def Met (w post : Str) : Prop :=
  (w = "EOF".toList ∧ post = []) ∨ ∃ T, readWant w = some T ∧ T.Begins E post

/-- The expectation is a word of several characters. -/
def IsWord (w k : Str) : Prop := readWant w = some (.lit k false) ∧ 2 ≤ k.length

end Aql.Spec
