import Verif.Spec.Grammar
/-!
When two trees say the same, and what keeps printed trees apart.
-/

namespace Aql.Spec

/-- The number that a value stands for. -/
inductive StandsFor : Val → F64 → Prop
  | float {f z p} : StandsFor (.float f z p) f
  | int {i s p} : StandsFor (.int i s p) (toF64 (i : ℚ))

/-- The same value, wherever it stands. A number may be written with or without a fraction. -/
inductive SameValue : Val → Val → Prop
  | str {x p q} : SameValue (.str x p) (.str x q)
  | regex {u src p q} : SameValue (.regex u src p) (.regex u src q)
  | bool {b p q} : SameValue (.bool b p) (.bool b q)
  | time {t i d p q} : SameValue (.time t i d p) (.time t i d q)
  | net {t n p q} : SameValue (.net t n p) (.net t n q)
  | number {v w f} : StandsFor v f → StandsFor w f → SameValue v w

/-- The same connectives around comparisons with the same operator, path and values. -/
inductive SameTree : Node → Node → Prop
  | and {l r l' r'} : SameTree l l' → SameTree r r' → SameTree (.and l r) (.and l' r')
  | or {l r l' r'} : SameTree l l' → SameTree r r' → SameTree (.or l r) (.or l' r')
  | not {e e'} : SameTree e e' → SameTree (.not e) (.not e')
  | expr {op f vs ws p q} : List.Forall₂ SameValue vs ws → SameTree (.expr op f vs p) (.expr op f ws q)

/-- Values whose printed form can be told from what follows: in a pattern no slash but the first has one of the characters
behind it that follow a printed value. -/
def LegibleVal : Val → Prop
  | .regex u _ _ => ∀ a c d, u = a ++ '/' :: c :: d → a ≠ [] → c ≠ ')' ∧ c ≠ ',' ∧ c ≠ ']'
  | _ => True

/-- All values are legible and no path is empty (which it is if written with nothing but `*`). -/
def Legible : Node → Prop
  | .and l r => Legible l ∧ Legible r
  | .or l r => Legible l ∧ Legible r
  | .not e => Legible e
  | .subdoc _ e => Legible e
  | .expr _ f vs _ => f ≠ [] ∧ ∀ v ∈ vs, LegibleVal v

/-- All values are legible; paths may be empty. -/
def LegiblePatterns : Node → Prop
  | .and l r => LegiblePatterns l ∧ LegiblePatterns r
  | .or l r => LegiblePatterns l ∧ LegiblePatterns r
  | .not e => LegiblePatterns e
  | .subdoc _ e => LegiblePatterns e
  | .expr _ _ vs _ => ∀ v ∈ vs, LegibleVal v

/-- The same path, but the empty path counts as the path of the empty name. -/
def SamePath (f g : List Str) : Prop := f = g ∨ (f = [] ∧ g = [[]]) ∨ (f = [[]] ∧ g = [])

/-- The same tree, up to the empty paths; the values as given. -/
inductive NearTree (R : Val → Val → Prop) : Node → Node → Prop
  | and {l r l' r'} : NearTree R l l' → NearTree R r r' → NearTree R (.and l r) (.and l' r')
  | or {l r l' r'} : NearTree R l l' → NearTree R r r' → NearTree R (.or l r) (.or l' r')
  | not {e e'} : NearTree R e e' → NearTree R (.not e) (.not e')
  | expr {op f g vs ws p q} : SamePath f g → List.Forall₂ R vs ws → NearTree R (.expr op f vs p) (.expr op g ws q)

end Aql.Spec
