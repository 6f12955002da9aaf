import Verif.Spec.Glob
/-!
Independent specification of when one pattern is wider than another, and of patterns that find their
instances anywhere in a text.
-/

namespace Aql.Spec

/-- `Wider ts ts'`: the pattern `ts'` arises from `ts` by steps that can only add instances. -/
inductive Wider : List PTok → List PTok → Prop
  | same (ts) : Wider ts ts
  | step {a b c} : Wider a b → Wider b c → Wider a c
  | behind (t) {a b} : Wider a b → Wider (t :: a) (t :: b)
  /-- a character other than a line break becomes `?` -/
  | anyChar {c : Char} (ts) : c ≠ '\n' → Wider (.lit c :: ts) (.one :: ts)
  /-- `?` becomes `*` -/
  | anyRun (ts) : Wider (.one :: ts) (.many :: ts)
  /-- `*` is put in -/
  | insert (ts) : Wider ts (.many :: ts)
  /-- `**` becomes `*` -/
  | merge (ts) : Wider (.many :: .many :: ts) (.many :: ts)
  /-- `?*` becomes `*?` and the other way round -/
  | swap (ts) : Wider (.one :: .many :: ts) (.many :: .one :: ts)
  | swapBack (ts) : Wider (.many :: .one :: ts) (.one :: .many :: ts)

/-- Some part of the text is an instance of the pattern; nothing is said about word boundaries. -/
def Contains (eqv : Char → Char → Prop) (ts : List PTok) (text : Str) : Prop :=
  ∃ pre mid post, text = pre ++ mid ++ post ∧ Instance eqv ts mid

/-- Both ends of the pattern are word characters. -/
def WordEnded (ts : List PTok) : Prop :=
  (∃ c, ts.head? = some (.lit c) ∧ WordChar c) ∧ ∃ c, ts.getLast? = some (.lit c) ∧ WordChar c

/-- A word character on the line of the place between `before` and `after`: before it or directly behind. -/
def WordUpTo (before after : Str) : Prop :=
  ∃ a u, before = a ++ u ∧ '\n' ∉ u ∧ ((∃ c ∈ u, WordChar c) ∨ ∃ c, after.head? = some c ∧ WordChar c)

/-- A word character on the line of the place between `before` and `after`: after it or directly in front. -/
def WordFrom (before after : Str) : Prop :=
  ∃ u b, after = u ++ b ∧ '\n' ∉ u ∧ ((∃ c ∈ u, WordChar c) ∨ ∃ c, before.getLast? = some c ∧ WordChar c)

/-- A character that makes up a word of its own, or is all that separates two words. -/
def Alone (text : Str) : Prop :=
  ∃ pre x post, text = pre ++ x :: post ∧ x ≠ '\n' ∧
    ((WordChar x ∧ (∀ c, pre.getLast? = some c → ¬ WordChar c) ∧ ∀ c, post.head? = some c → ¬ WordChar c) ∨
     (¬ WordChar x ∧ (∃ c, pre.getLast? = some c ∧ WordChar c) ∧ ∃ c, post.head? = some c ∧ WordChar c))

end Aql.Spec
