import Verif.Model.Env
/-!
What regular expressions mean, apart from how the library matches them, and what it is for a library to agree
with this.
-/

namespace Aql.Spec

/-- Label of `syntax.OpConcat` (its value in Go; the program does not test for it). -/
def opConcat : Nat := 18

/-- Labels of expressions without parts, other than any character: 1 to 12 in Go. -/
def LeafLabel (op : Nat) : Prop := op < opCapture ∧ op ≠ opAnyChar ∧ op ≠ opAnyCharNotNL

/-- Labels of repetitions: `*`, `+`, `?` and `{n,m}` (`syntax.OpPlus` is 15 and `syntax.OpRepeat` 17 in Go). -/
def RepLabel (op lo : Nat) (hi : Option Nat) : Prop :=
  (op = opStar ∧ lo = 0 ∧ hi = none) ∨ (op = 15 ∧ lo = 1 ∧ hi = none) ∨ (op = opQuest ∧ lo = 0 ∧ hi = some 1) ∨
    op = 17

/-- A regular expression: something without parts (given by the texts before, taken and after), any character
(with or without line breaks), a part repeated between `lo` and `hi` times (`*`, `+`, `?`, `{n,m}`), a group,
parts one after the other, and alternatives. -/
inductive Rx
  | leaf (op : Nat) (P : Str → Str → Str → Prop) (h : LeafLabel op)
  | any (breaks : Bool)
  | rep (op lo : Nat) (hi : Option Nat) (r : Rx) (h : RepLabel op lo hi)
  | group (r : Rx)
  | seq (rs : List Rx)
  | alt (rs : List Rx)

/-- Between `before` and `after`, the expression can take the text in the middle. -/
inductive Takes : Rx → Str → Str → Str → Prop
  | leaf {op P h b m a} : P b m a → Takes (.leaf op P h) b m a
  | any {k c b a} : (k = false → c ≠ '\n') → Takes (.any k) b [c] a
  | rep {op lo hi r h n b m a} : lo ≤ n → (∀ k, hi = some k → n ≤ k) → Takes (.seq (List.replicate n r)) b m a →
      Takes (.rep op lo hi r h) b m a
  | group {r b m a} : Takes r b m a → Takes (.group r) b m a
  | none {b a} : Takes (.seq []) b [] a
  | one {r rs b m n a} : Takes r b m (n ++ a) → Takes (.seq rs) (b ++ m) n a → Takes (.seq (r :: rs)) b (m ++ n) a
  | alt {rs r b m a} : r ∈ rs → Takes r b m a → Takes (.alt rs) b m a

/-- The expression takes some part of the text. -/
def FoundIn (r : Rx) (t : Str) : Prop := ∃ b m a, t = b ++ m ++ a ∧ Takes r b m a

mutual
/-- The tree of the expression: the operations only. -/
def Rx.shape : Rx → ReSyn
  | .leaf op _ _ => .mk op []
  | .any k => .mk (if k then opAnyChar else opAnyCharNotNL) []
  | .rep op _ _ r _ => .mk op [r.shape]
  | .group r => .mk opCapture [r.shape]
  | .seq rs => .mk opConcat (Rx.shapes rs)
  | .alt rs => .mk opAlternate (Rx.shapes rs)
/-- The trees of several expressions. -/
def Rx.shapes : List Rx → List ReSyn
  | [] => []
  | r :: rs => r.shape :: Rx.shapes rs
end

/-- The library reads the text `src` as the expression: it makes the tree of it and matches what it means. -/
def ReadsRx (E : Env) (src : Str) (r : Rx) : Prop :=
  E.reSyntax src = some r.shape ∧ ∀ t, reMatchString E src t = true ↔ FoundIn r t

/-- `.*`. -/
def dotStar (breaks : Bool) : Rx := .rep opStar 0 none (.any breaks) (.inl ⟨rfl, rfl, rfl⟩)

/-- Parts one after the other; a single one stands for itself. -/
def inTurn : List Rx → Rx
  | [r] => r
  | rs => .seq rs

/-- Alternatives; a single one stands for itself. -/
def oneOf : List Rx → Rx
  | [r] => r
  | rs => .alt rs

/-- The expression itself, or it in a group. -/
def Bracketed (r s : Rx) : Prop := s = r ∨ s = .group r

end Aql.Spec
