import Verif.Spec.Grammar
/-!
Queries as sequences of tokens, without white space, and the texts that lay such a query out. The tree
of a query is a function of its tokens.
-/

namespace Aql.Spec

/-- A query without white space: names, operators and literals with what they denote, and the
connectives. -/
inductive Cst
  | noArgs (p : Str) (xs : List Str) (o : Str) (op : Op)
  | compare (p : Str) (xs : List Str) (o : Str) (op : Op) (lits : List (Str × Val))
  | group (c : Cst)
  | not (bang : Bool) (c : Cst)
  | and (l r : Cst)
  | or (l r : Cst)

/-- The value without its position. -/
def unplaced : Val → Val
  | .int i s _ => .int i s noPosition
  | .float f z _ => .float f z noPosition
  | .str s _ => .str s noPosition
  | .bool b _ => .bool b noPosition
  | .regex s r _ => .regex s r noPosition
  | .net s n _ => .net s n noPosition
  | .time s t d _ => .time s t d noPosition

/-- The tree without positions. -/
def bare : Node → Node
  | .and l r => .and (bare l) (bare r)
  | .or l r => .or (bare l) (bare r)
  | .not n => .not (bare n)
  | .subdoc f n => .subdoc f (bare n)
  | .expr op f vs _ => .expr op f (vs.map unplaced) noPosition

/-- The tree that the tokens denote. -/
def Cst.tree : Cst → Node
  | .noArgs _ xs _ op => .expr op (withoutStars xs) [] noPosition
  | .compare _ xs _ op lits => .expr op (withoutStars xs) (lits.map fun l => unplaced l.2) noPosition
  | .group c => c.tree
  | .not _ c => .not c.tree
  | .and l r => .and l.tree r.tree
  | .or l r => .or l.tree r.tree

/-- The literals with commas and white space between them. -/
inductive LaidItems (E : Env) : List (Str × Val) → Str → Prop
  | one {t v} : Lit E [] t v → LaidItems E [(t, v)] t
  | cons {t v ls w1 w2 s} : Lit E [] t v → Ws w1 → Ws w2 → LaidItems E ls s →
      LaidItems E ((t, v) :: ls) (t ++ (w1 ++ ',' :: (w2 ++ s)))

/-- A single literal, or a list of at least two in parentheses. -/
inductive LaidValues (E : Env) : List (Str × Val) → Str → Prop
  | one {t v} : Lit E [] t v → LaidValues E [(t, v)] t
  | list {ls w1 w2 s} : 2 ≤ ls.length → Ws w1 → LaidItems E ls s → Ws w2 →
      LaidValues E ls ('(' :: (w1 ++ (s ++ (w2 ++ [')']))))

/-- The text lays the query out: any white space where it is allowed, some where it is needed. The
operands of a connective bind at least as tightly as the level says. -/
inductive Laid (E : Env) : Level → Cst → Str → Prop
  | noArgs {p xs o op w1 w2} : Path E p xs → NoArgOp o op → Ws w1 → Ws w2 →
      Laid E .cmp (.noArgs p xs o op) (p ++ (w1 ++ ':' :: (w2 ++ o)))
  | compare {p xs o op ls w1 w2 w3 s} : Path E p xs → OpText o op → LaidValues E ls s → Ws w1 → Ws w2 → Ws w3 →
      Laid E .cmp (.compare p xs o op ls) (p ++ (w1 ++ ':' :: (w2 ++ (o ++ (w3 ++ s)))))
  | group {c s w1 w2} : Laid E .or c s → Ws w1 → Ws w2 →
      Laid E .cmp (.group c) ('(' :: (w1 ++ (s ++ (w2 ++ [')']))))
  | word {c s w} : Laid E .cmp c s → Space w → Laid E .not (.not false c) ("NOT".toList ++ (w ++ s))
  | bang {c s w} : Laid E .cmp c s → Ws w → Laid E .not (.not true c) ('!' :: (w ++ s))
  | and {l r s t w1 w2} : Laid E .not l s → Laid E .and r t → Space w1 → Space w2 →
      Laid E .and (.and l r) (s ++ (w1 ++ ("AND".toList ++ (w2 ++ t))))
  | or {l r s t w1 w2} : Laid E .and l s → Laid E .or r t → Space w1 → Space w2 →
      Laid E .or (.or l r) (s ++ (w1 ++ ("OR".toList ++ (w2 ++ t))))
  | cmpNot {c s} : Laid E .cmp c s → Laid E .not c s
  | notAnd {c s} : Laid E .not c s → Laid E .and c s
  | andOr {c s} : Laid E .and c s → Laid E .or c s

/-- The text is the query, laid out, with white space around it. -/
def LaidOut (E : Env) (c : Cst) (s : Str) : Prop :=
  ∃ w1 q w2, Ws w1 ∧ Ws w2 ∧ Laid E .or c q ∧ s = w1 ++ (q ++ w2)

end Aql.Spec
