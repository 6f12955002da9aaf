import Verif.Model.Basic
/-!
Independent specification of string literals with wildcards (README "String Comparisons"):
`?` is any one character, `*` any run of characters, `\?` and `\*` are literal; neither wildcard
covers a line break. `eqv` is the character equality in use (case-insensitive).
-/

namespace Aql.Spec

/-- One element of a pattern. -/
inductive PTok
  | lit (c : Char)
  | one
  | many
  deriving DecidableEq

/-- Elements of a pattern text, as a relation: each rule consumes the text it describes; the last
rule covers every character that is not a wildcard and not the beginning of an escape. -/
inductive Toks : Str → List PTok → Prop
  | nil : Toks [] []
  | escOne {s ts} : Toks s ts → Toks ('\\' :: '?' :: s) (.lit '?' :: ts)
  | escMany {s ts} : Toks s ts → Toks ('\\' :: '*' :: s) (.lit '*' :: ts)
  | one {s ts} : Toks s ts → Toks ('?' :: s) (.one :: ts)
  | many {s ts} : Toks s ts → Toks ('*' :: s) (.many :: ts)
  | char {c s ts} : c ≠ '?' → c ≠ '*' →
      ¬ (c = '\\' ∧ (s.head? = some '?' ∨ s.head? = some '*')) →
      Toks s ts → Toks (c :: s) (.lit c :: ts)

/-- The whole text is an instance of the pattern. -/
inductive Instance (eqv : Char → Char → Prop) : List PTok → Str → Prop
  | nil : Instance eqv [] []
  | lit {c x ts xs} : eqv c x → Instance eqv ts xs → Instance eqv (.lit c :: ts) (x :: xs)
  | one {x ts xs} : x ≠ '\n' → Instance eqv ts xs → Instance eqv (.one :: ts) (x :: xs)
  | many {run ts xs} : '\n' ∉ run → Instance eqv ts xs → Instance eqv (.many :: ts) (run ++ xs)

/-- ASCII letters, digits and underscore. -/
def WordChar (c : Char) : Prop :=
  ('0' ≤ c ∧ c ≤ '9') ∨ ('a' ≤ c ∧ c ≤ 'z') ∨ ('A' ≤ c ∧ c ≤ 'Z') ∨ c = '_'

/-- There is a word boundary between `before` and `after`: exactly one of the two adjacent
characters exists and is a word character. -/
def WordBoundary (before after : Str) : Prop :=
  ¬ ((∃ c, before.getLast? = some c ∧ WordChar c) ↔ (∃ c, after.head? = some c ∧ WordChar c))

/-- The pattern occurs in the text; if `bounded`, between word boundaries. -/
def Occurs (eqv : Char → Char → Prop) (bounded : Prop) (pat text : Str) : Prop :=
  ∃ ts pre mid post, Toks pat ts ∧ text = pre ++ mid ++ post ∧ Instance eqv ts mid ∧
    (bounded → WordBoundary pre (mid ++ post) ∧ WordBoundary (pre ++ mid) post)

end Aql.Spec
