import Verif.Spec.Expectation
import Verif.Spec.Wrong
/-!
Texts that can be completed to a query.
-/

namespace Aql.Spec

variable (E : Env)

/-- Some query begins with the text. -/
def Beginning (p : Str) : Prop := ∃ t n, Query E (p ++ t) n

/-- The text ends where the values of a comparison are expected. -/
inductive ValuesDue : Str → Prop
  | mk {q p xs w1 w2 o op w3} : Opens E .cmp q → Path E p xs → Ws w1 → Ws w2 → OpText o op → Ws w3 →
      ValuesDue (q ++ (p ++ (w1 ++ ':' :: (w2 ++ (o ++ w3)))))

/-- The text ends where a literal is expected: the only value, or one in a list. -/
inductive LitDue : Str → Prop
  | one {q} : ValuesDue E q → LitDue q
  | first {q w} : ValuesDue E q → Ws w → LitDue (q ++ '(' :: w)
  | next {q w t xs w1 w2} : ValuesDue E q → Ws w → Items E (q ++ '(' :: w) t xs → Ws w1 → Ws w2 →
      LitDue (q ++ '(' :: w ++ (t ++ (w1 ++ ',' :: w2)))

/-- The text ends within something that has the shape of a time or of a network but is none, such as the 13th
month of a year, at a place where a literal is expected. A day with a space behind it is no such thing: the space
may be followed by a time of the day, or by what follows a literal. -/
def Misshapen (p : Str) : Prop :=
  ∃ q x y, p = q ++ x ∧ LitDue E q ∧ (StampShape E (x ++ y) ∨ DateShape (x ++ y) ∨ NetShape (x ++ y)) ∧
    (∀ t v, ¬ Lit E q (x ++ t) v) ∧ ∀ d i, x = d ++ [' '] → ¬ DayText d i

/-- The text ends within a string that cannot be completed, such as one with the code of half a character. -/
def HalfString (p : Str) : Prop :=
  ∃ q s, p = q ++ '"' :: s ∧ Spelling E s ∧ (∀ t x, ¬ StrBody (s ++ t) x) ∧
    ∀ t x, StrBody t x → Beginning E (q ++ '"' :: (t ++ ['"']))

/-- The text ends within a regular expression that cannot be completed to one that compiles, at a place where any
literal would do. -/
def OddPattern (p : Str) : Prop :=
  ∃ q s, p = q ++ '/' :: s ∧ RegexBody s ∧ (∀ t v, ¬ Lit E q ('/' :: s ++ t) v) ∧
    ∀ t v, Lit E q t v → Beginning E (q ++ t)

/-- The expectation of a character of which times and networks consist. -/
def ShapeSign (w : Str) : Prop :=
  w ∈ ["[0-9]".toList, "\"-\"".toList, "\":\"".toList, "\".\"".toList, "\"/\"".toList, "\"+\"".toList, "\"T\"i".toList,
    "\"Z\"i".toList, "\" \"".toList]

/-- The text ends within something that has the shape of a time or of a network and may go on as expected in that
shape, but not in any literal, such as the 30th of February, at a place where a literal is expected. The space behind
a day is not meant. -/
def Misled (p w : Str) : Prop :=
  ∃ q x y, p = q ++ x ∧ LitDue E q ∧ (StampShape E (x ++ y) ∨ DateShape (x ++ y) ∨ NetShape (x ++ y)) ∧ ShapeSign w ∧
    Met E w y ∧ (∀ t v, Met E w t → ¬ Lit E q (x ++ t) v) ∧ (w = "\" \"".toList → ∀ i, ¬ DayText x i)

end Aql.Spec
