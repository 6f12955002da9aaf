import Verif.Spec.Grammar
/-!
How deeply the parentheses around clauses are nested in a query. Parentheses around values, and those
inside literals and names, do not count.
-/

namespace Aql.Spec

/-- The text is an expression of the level, denotes the tree, and has at most `d` pairs of parentheses
around clauses inside one another. -/
inductive TextIn (E : Env) : Nat → Level → Str → Str → Node → Prop
  | group {d pre w1 s w2 n} : Ws w1 → TextIn E d .or (pre ++ '(' :: w1) s n → Ws w2 →
      TextIn E (d + 1) .cmp pre ('(' :: (w1 ++ (s ++ (w2 ++ [')'])))) n
  | noArgs {d pre p xs w1 w2 o op t} : Path E p xs → Ws w1 → Ws w2 → NoArgOp o op →
      t = p ++ (w1 ++ ':' :: (w2 ++ o)) →
      TextIn E d .cmp pre t (.expr op (withoutStars xs) [] (posAt pre t))
  | compare {d pre p xs w1 w2 o op w3 s vs t} : Path E p xs → Ws w1 → Ws w2 → OpText o op → Ws w3 →
      Values E (pre ++ (p ++ (w1 ++ ':' :: (w2 ++ (o ++ w3))))) s vs →
      t = p ++ (w1 ++ ':' :: (w2 ++ (o ++ (w3 ++ s)))) →
      TextIn E d .cmp pre t (.expr op (withoutStars xs) vs (posAt pre t))
  | notCmp {d pre s n} : TextIn E d .cmp pre s n → TextIn E d .not pre s n
  | not {d pre k s n} : NotWord k → TextIn E d .cmp (pre ++ k) s n → TextIn E d .not pre (k ++ s) (.not n)
  | andNot {d pre s n} : TextIn E d .not pre s n → TextIn E d .and pre s n
  | and {d pre a l w1 w2 b r} : TextIn E d .not pre a l → Space w1 → Space w2 →
      TextIn E d .and (pre ++ (a ++ (w1 ++ ("AND".toList ++ w2)))) b r →
      TextIn E d .and pre (a ++ (w1 ++ ("AND".toList ++ (w2 ++ b)))) (.and l r)
  | orAnd {d pre s n} : TextIn E d .and pre s n → TextIn E d .or pre s n
  | or {d pre a l w1 w2 b r} : TextIn E d .and pre a l → Space w1 → Space w2 →
      TextIn E d .or (pre ++ (a ++ (w1 ++ ("OR".toList ++ w2)))) b r →
      TextIn E d .or pre (a ++ (w1 ++ ("OR".toList ++ (w2 ++ b)))) (.or l r)

/-- The whole text of a query with at most `d` pairs of parentheses around clauses inside one another. -/
def QueryIn (E : Env) (d : Nat) (s : Str) (n : Node) : Prop :=
  ∃ w1 q w2, Ws w1 ∧ Ws w2 ∧ TextIn E d .or w1 q n ∧ s = w1 ++ (q ++ w2)

/-- The largest number of parentheses that are open at once, beginning with `l` of them. -/
def deepest (l : Nat) : Str → Nat
  | [] => l
  | c :: s => max l (deepest (if c = '(' then l + 1 else if c = ')' then l - 1 else l) s)

end Aql.Spec
