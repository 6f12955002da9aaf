import Verif.Spec.Query
import Verif.Model.Matcher
/-!
Independent account of how often the parts of a query are looked at: from left to right, the second
operand of AND only where the first holds, that of OR only where it does not (nodes.go:18-58).
-/

namespace Aql.Spec

/-- The part of a query at an address: `false` leads to the first operand, `true` to the second. -/
inductive At : Node → List Bool → Node → Prop
  | here {n : Node} : At n [] n
  | andL {l r n : Node} {a : List Bool} : At l a n → At (.and l r) (false :: a) n
  | andR {l r n : Node} {a : List Bool} : At r a n → At (.and l r) (true :: a) n
  | orL {l r n : Node} {a : List Bool} : At l a n → At (.or l r) (false :: a) n
  | orR {l r n : Node} {a : List Bool} : At r a n → At (.or l r) (true :: a) n
  | not {e n : Node} {a : List Bool} : At e a n → At (.not e) (false :: a) n

/-- The part at an address is looked at; `sat` tells which parts hold of the document. -/
def LookedAt (sat : Node → Prop) : Node → List Bool → Prop
  | .and l _, false :: a => LookedAt sat l a
  | .and l r, true :: a => sat l ∧ LookedAt sat r a
  | .or l _, false :: a => LookedAt sat l a
  | .or l r, true :: a => ¬ sat l ∧ LookedAt sat r a
  | .not e, _ :: a => LookedAt sat e a
  | _, _ => True

/-- The documents among what was given to `Match`. -/
def documents : List Doc → List Json
  | [] => []
  | .valid j :: ds => j :: documents ds
  | .invalid :: ds => documents ds

open scoped Classical in
/-- The statistics of the whole query: every part with its name, the number of documents that get to it and
the number of those that satisfy it. -/
noncomputable def fullStats (E : Env) (ds : List Json) (gets : Json → Prop) : Node → MatchStats
  | .and l r => .mk "AND".toList (ds.countP fun d => decide (gets d))
      (ds.countP fun d => decide (gets d ∧ Sat E d (.and l r)))
      [fullStats E ds gets l, fullStats E ds (fun d => gets d ∧ Sat E d l) r]
  | .or l r => .mk "OR".toList (ds.countP fun d => decide (gets d))
      (ds.countP fun d => decide (gets d ∧ Sat E d (.or l r)))
      [fullStats E ds gets l, fullStats E ds (fun d => gets d ∧ ¬ Sat E d l) r]
  | .not e => .mk "NOT".toList (ds.countP fun d => decide (gets d))
      (ds.countP fun d => decide (gets d ∧ Sat E d (.not e))) [fullStats E ds gets e]
  | .expr op f vs p => .mk (friendlyString E op f vs) (ds.countP fun d => decide (gets d))
      (ds.countP fun d => decide (gets d ∧ Sat E d (.expr op f vs p))) []
  | .subdoc _ e => fullStats E ds gets e

end Aql.Spec
