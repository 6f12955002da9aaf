import Verif.Spec.ErrorText
/-!
Beginnings of texts that cannot be repaired by going on, and what is said about them: a clause is
expected and something in its path or its values is wrong. Written without any notion of a parser.
-/

namespace Aql.Spec

variable (E : Env)

/-- The text ends where an expression of the level is expected. -/
inductive Opens : Level → Str → Prop
  | start {w} : Ws w → Opens .or w
  | group {q w} : Opens .cmp q → Ws w → Opens .or (q ++ '(' :: w)
  | or {q a n w1 w2} : Opens .or q → Text E .and q a n → Space w1 → Space w2 →
      Opens .or (q ++ (a ++ (w1 ++ ("OR".toList ++ w2))))
  | orAnd {q} : Opens .or q → Opens .and q
  | and {q a n w1 w2} : Opens .and q → Text E .not q a n → Space w1 → Space w2 →
      Opens .and (q ++ (a ++ (w1 ++ ("AND".toList ++ w2))))
  | andNot {q} : Opens .and q → Opens .not q
  | not {q k} : Opens .not q → NotWord k → Opens .cmp (q ++ k)
  | notCmp {q} : Opens .not q → Opens .cmp q

/-- `u` is the longest beginning of `u ++ post` of the shape `P`. -/
def Longest (P : Str → Prop) (u post : Str) : Prop :=
  P u ∧ ∀ x y, u ++ post = x ++ y → P x → x.length ≤ u.length

/-- The text begins with a string that is wrong. The message is about the place after the first argument
that follows, and has the length given last. -/
inductive WrongString : Str → Str → Str → Nat → Prop
  /-- half a character -/
  | half {t u post} : Spelling E t → u = '"' :: (t ++ ['"']) → (∀ x, ¬ StrBody t x) →
      WrongString (u ++ post) [] "invalid string: invalid syntax".toList u.length
  /-- not closed -/
  | unclosed {t post} : Spelling E t → Stuck (Spelling E) '"' post →
      WrongString ('"' :: (t ++ post)) ('"' :: t)
        "unterminated string, check for missing closing [\"] or unescaped [\\]".toList 1

/-- The text begins with a value that is wrong. -/
inductive WrongValue : Str → Str → Str → Nat → Prop
  | string {s v msg n} : WrongString E s v msg n → WrongValue s v msg n
  /-- the pattern does not compile -/
  | pattern {t u post x src} : RegexBody t → u = '/' :: (t ++ ['/']) → Unescaped u x → Trimmed x src →
      reCompiles E src = false →
      WrongValue (u ++ post) [] ("invalid regular expression [".toList ++ x ++ "]: ".toList ++ E.reErr src) u.length
  | unclosedPattern {t post} : RegexBody t → Stuck RegexBody '/' post →
      WrongValue ('/' :: (t ++ post)) ('/' :: t)
        "unterminated regular expression, did you forget a closing '/'?".toList 1
  /-- no such instant -/
  | stamp {u post} : StampShape E u → (∀ i, ¬ StampText u i) →
      WrongValue (u ++ post) [] ("invalid datetime value [".toList ++ u ++ "]: ".toList ++ E.timeErr u) u.length
  /-- no such day -/
  | day {u post} : DateShape u → (∀ x y, u ++ post = x ++ y → ¬ StampShape E x) → (∀ i, ¬ DayText u i) →
      WrongValue (u ++ post) [] ("invalid datetime value [".toList ++ u ++ "]: ".toList ++ E.timeErr u) u.length
  /-- no such address or block -/
  | network {u post x} : Longest NetShape u post → (∀ S, ¬ Denotes u S) →
      x = (if '/' ∈ u then u else u ++ "/32".toList) →
      WrongValue (u ++ post) [] ("invalid network value [".toList ++ x ++ "]: ".toList ++ E.netErr x) u.length
  /-- too large -/
  | float {m a b u post q} : Minus m → AllDigits a → b ≠ [] → AllDigits b → u = m ++ (a ++ '.' :: b) →
      NoDigit post → DecText u q → (∀ x, toF64 q ≠ .fin x) →
      WrongValue (u ++ post) [] ("invalid float value [".toList ++ u ++ "]".toList) u.length
  | integer {m a u post n} : Minus m → AllDigits a → u = m ++ a → NoDigit post →
      (∀ c t, post = '.' :: c :: t → ¬ ('0' ≤ c ∧ c ≤ '9')) → IntText u n → ¬ (-(2 ^ 63 : Int) ≤ n ∧ n < 2 ^ 63) →
      WrongValue (u ++ post) [] ("invalid integer value [".toList ++ u ++ "]".toList) 1
  /-- no value at all -/
  | closing {t post} : Word (')' :: t) post →
      WrongValue (')' :: t ++ post) [] "unexpected closing parenthesis, expecting values".toList 1
  | unknown {c t post} : Word (c :: t) post → c ≠ '"' → c ≠ '/' → c ≠ ')' → ¬ ('0' ≤ c ∧ c ≤ '9') →
      (c = '-' → NoDigit t) → ¬ "true".toList <+: c :: t → ¬ "false".toList <+: c :: t →
      WrongValue (c :: t ++ post) [] ("unknown type of value [".toList ++ c :: t ++ "] -- did you mean ".toList ++
        quote E (c :: t) ++ "?".toList) 1

/-- A list of values in parentheses, after `q`, that is wrong. -/
inductive WrongList (q : Str) : Str → Str → Str → Nat → Prop
  | first {w s v msg n} : Ws w → WrongValue E s v msg n →
      WrongList q ('(' :: (w ++ s)) ('(' :: (w ++ v)) msg n
  | later {w t xs w1 w2 s v msg n} : Ws w → Items E (q ++ '(' :: w) t xs → Ws w1 → Ws w2 → WrongValue E s v msg n →
      WrongList q ('(' :: (w ++ (t ++ (w1 ++ ',' :: (w2 ++ s))))) ('(' :: (w ++ (t ++ (w1 ++ ',' :: (w2 ++ v))))) msg n
  | single {w1 t x w2 post} : Ws w1 → Lit E (q ++ '(' :: w1) t x → Ws w2 →
      WrongList q ('(' :: (w1 ++ (t ++ (w2 ++ ')' :: post)))) [] "unnecessary parenthesis for only one value".toList 1

/-- Values of a comparison, after `q`, that are wrong. -/
inductive WrongValues (q : Str) : Str → Str → Str → Nat → Prop
  | one {s v msg n} : WrongValue E s v msg n → (∀ t, s ≠ '(' :: t) → WrongValues q s v msg n
  | list {s v msg n} : WrongList E q s v msg n → WrongValues q s v msg n
  /-- The parenthesis does not begin a list, right or wrong, so it is taken for a value. -/
  | broken {s v msg n} : WrongValue E ('(' :: s) v msg n → (∀ v' msg' n', ¬ WrongList E q ('(' :: s) v' msg' n') →
      (∀ a b xs, s = a ++ b → ¬ Values E q ('(' :: a) xs) → WrongValues q ('(' :: s) v msg n

/-- A comparison, after `q`, with a wrong name in its path or wrong values. -/
inductive WrongClause (q : Str) : Str → Str → Str → Nat → Prop
  | values {p xs w1 w2 o op w3 s v msg n} : Path E p xs → Ws w1 → Ws w2 → OpText o op → Ws w3 → (o = [] → w3 = []) →
      (∀ k x, NoArgOp k x → ¬ k <+: o ++ (w3 ++ s)) →
      (∀ k x, OpText k x → k <+: o ++ (w3 ++ s) → k.length ≤ o.length) →
      WrongValues E (q ++ (p ++ (w1 ++ ':' :: (w2 ++ (o ++ w3))))) s v msg n →
      WrongClause q (p ++ (w1 ++ ':' :: (w2 ++ (o ++ (w3 ++ s))))) (p ++ (w1 ++ ':' :: (w2 ++ (o ++ (w3 ++ v))))) msg n
  | name {p s v msg n} : (p = [] ∨ ∃ r xs, Path E r xs ∧ p = r ++ ['.']) → WrongString E s v msg n →
      WrongClause q (p ++ s) (p ++ v) msg n

end Aql.Spec
