import Verif.Spec.Grammar
import Verif.Spec.Reread
/-!
What the messages of syntax errors claim about the text they mark. Written without any notion of a
parser.
-/

namespace Aql.Spec

variable (E : Env)

/-! ### Places -/

/-- The text ends where the values of a comparison begin. -/
def ValuesPlace (pre : Str) : Prop :=
  ∃ q p xs w1 w2 o op w3, Path E p xs ∧ Ws w1 ∧ Ws w2 ∧ OpText o op ∧ Ws w3 ∧
    pre = q ++ (p ++ (w1 ++ ':' :: (w2 ++ (o ++ w3))))

/-- The text ends where a single value begins: the first one, or one of a list in parentheses. -/
def ValuePlace (pre : Str) : Prop :=
  ValuesPlace E pre ∨
  (∃ q w, ValuesPlace E q ∧ Ws w ∧ pre = q ++ '(' :: w) ∨
  ∃ q w s vs w1 w2, ValuesPlace E q ∧ Ws w ∧ Items E (q ++ '(' :: w) s vs ∧ Ws w1 ∧ Ws w2 ∧
    pre = q ++ '(' :: (w ++ (s ++ (w1 ++ ',' :: w2)))

/-! ### Shapes -/

/-- Hexadecimal digit, ignoring case. -/
def HexChar (c : Char) : Prop :=
  ('0' ≤ goLower E c ∧ goLower E c ≤ '9') ∨ ('a' ≤ goLower E c ∧ goLower E c ≤ 'f')

/-- Spelling of a string between the quotes, whether or not it denotes one. -/
inductive Spelling : Str → Prop
  | nil : Spelling []
  | plain {c s} : c ≠ '"' → c ≠ '\\' → 32 ≤ c.toNat → Spelling s → Spelling (c :: s)
  | escape {c d s} : Escape c d → Spelling s → Spelling ('\\' :: c :: s)
  | unicode {a b c d s} : HexChar E a → HexChar E b → HexChar E c → HexChar E d → Spelling s →
      Spelling ('\\' :: 'u' :: a :: b :: c :: d :: s)

/-- `post` neither ends nor continues what `P` describes. -/
def Stuck (P : Str → Prop) (close : Char) (post : Str) : Prop :=
  (∀ t, post ≠ close :: t) ∧ ∀ a b, post = a ++ b → P a → a = []

/-- `dddd-dd-dd` -/
def DateShape (s : Str) : Prop :=
  ∃ a b c, AllDigits a ∧ a.length = 4 ∧ AllDigits b ∧ b.length = 2 ∧ AllDigits c ∧ c.length = 2 ∧
    s = a ++ '-' :: (b ++ '-' :: c)

/-- `Z`, or a sign and `dd:dd`. -/
def ZoneShape (s : Str) : Prop :=
  (∃ c, goLower E c = 'z' ∧ s = [c]) ∨
  ∃ g h m, (g = '+' ∨ g = '-') ∧ AllDigits h ∧ h.length = 2 ∧ AllDigits m ∧ m.length = 2 ∧
    s = g :: (h ++ ':' :: m)

/-- A date, `T` or a space, `dd:dd:dd`, an optional fraction and a zone. -/
def StampShape (s : Str) : Prop :=
  ∃ d c h m sec f z, DateShape d ∧ (goLower E c = 't' ∨ c = ' ') ∧ AllDigits h ∧ h.length = 2 ∧
    AllDigits m ∧ m.length = 2 ∧ AllDigits sec ∧ sec.length = 2 ∧
    (f = [] ∨ ∃ ds, ds ≠ [] ∧ AllDigits ds ∧ f = '.' :: ds) ∧ ZoneShape E z ∧
    s = d ++ c :: (h ++ ':' :: (m ++ ':' :: (sec ++ (f ++ z))))

/-- A maximal run of characters that are not white space. -/
def Word (u post : Str) : Prop :=
  u ≠ [] ∧ (∀ c ∈ u, ¬ IsWs c) ∧ ∀ c t, post = c :: t → IsWs c

/-- The text does not go on with a digit. -/
def NoDigit (post : Str) : Prop := ∀ c t, post = c :: t → ¬ ('0' ≤ c ∧ c ≤ '9')

/-! ### Expectations -/

/-- What one step of reading a text may ask for. -/
inductive Terminal
  /-- this text, or with `true` this text in upper or lower case -/
  | lit (s : Str) (ic : Bool)
  /-- one of these characters or ranges (`ic`: ignoring case), or with `inv` any other -/
  | cls (chars : List Char) (ranges : List (Char × Char)) (ic inv : Bool)
  /-- any character -/
  | any
  deriving DecidableEq

/-- The text begins with it. -/
def Terminal.Begins : Terminal → Str → Prop
  | .lit s ic, t => ∃ a b, t = a ++ b ∧ if ic then a.map (goLower E) = s.map (goLower E) else a = s
  | .cls chars ranges ic inv, t => ∃ c b, t = c :: b ∧
      let d := if ic then goLower E c else c
      if inv then ¬ (d ∈ chars ∨ ∃ r ∈ ranges, r.1 ≤ d ∧ d ≤ r.2)
      else d ∈ chars ∨ ∃ r ∈ ranges, r.1 ≤ d ∧ d ≤ r.2
  | .any, t => t ≠ []

/-- Value of a hexadecimal digit. -/
def nibble (c : Char) : Nat := if c ≤ '9' then c.toNat - 48 else c.toNat - 87

/-- A character in the notation of expectations. -/
def readGlyph : Str → Option (Char × Str)
  | '\\' :: 'n' :: s => some ('\n', s)
  | '\\' :: 't' :: s => some ('\t', s)
  | '\\' :: 'r' :: s => some ('\r', s)
  | '\\' :: 'x' :: a :: b :: s => some (Char.ofNat (nibble a * 16 + nibble b), s)
  | '\\' :: c :: s => some (c, s)
  | c :: s => some (c, s)
  | [] => none

/-- The characters up to the closing quote, and what follows it. -/
def readWord : Nat → Str → Option (Str × Str)
  | 0, _ => none
  | _, '"' :: s => some ([], s)
  | n + 1, s => do
    let (c, s) ← readGlyph s
    let (t, s) ← readWord n s
    return (c :: t, s)

/-- The characters and ranges up to the closing bracket, and what follows it. -/
def readSet : Nat → Str → Option (List Char × List (Char × Char) × Str)
  | 0, _ => none
  | _, ']' :: s => some ([], [], s)
  | n + 1, s => do
    let (c, s) ← readGlyph s
    match s with
    | '-' :: ']' :: _ =>
      let (cs, rs, s) ← readSet n s
      return (c :: cs, rs, s)
    | '-' :: s =>
      let (d, s) ← readGlyph s
      let (cs, rs, s) ← readSet n s
      return (cs, (c, d) :: rs, s)
    | _ =>
      let (cs, rs, s) ← readSet n s
      return (c :: cs, rs, s)

/-- How an expectation is written in a message: a text in quotes, a class in brackets, both with an `i`
if case is ignored, or a point. -/
def readWant : Str → Option Terminal
  | ['.'] => some .any
  | '"' :: s =>
    match readWord s.length s with
    | some (t, []) => some (.lit t false)
    | some (t, ['i']) => some (.lit t true)
    | _ => none
  | '[' :: '^' :: s =>
    match readSet s.length s with
    | some (cs, rs, []) => some (.cls cs rs false true)
    | some (cs, rs, ['i']) => some (.cls cs rs true true)
    | _ => none
  | '[' :: s =>
    match readSet s.length s with
    | some (cs, rs, []) => some (.cls cs rs false false)
    | some (cs, rs, ['i']) => some (.cls cs rs true false)
    | _ => none
  | _ => none

example : readWant "\"AND\"".toList = some (.lit "AND".toList false) := by decide +kernel
example : readWant "\"T\"i".toList = some (.lit "T".toList true) := by decide +kernel
example : readWant "[a-z0-9_-]i".toList = some (.cls ['_', '-'] [('a', 'z'), ('0', '9')] true false) := by
  decide +kernel
example : readWant "[^ \\n\\t\\r]".toList = some (.cls [' ', '\n', '\t', '\r'] [] false true) := by
  decide +kernel

/-- The expectation `w` is not met by the text that follows: something expected is absent, or something
excluded (`!`) is present, or the text should have ended. -/
def Unmet (w post : Str) : Prop :=
  (w = "EOF".toList ∧ post ≠ []) ∨
  (∃ T, readWant w = some T ∧ ¬ T.Begins E post) ∨
  ∃ w' T, w = '!' :: w' ∧ readWant w' = some T ∧ T.Begins E post

/-- Expectations as a list: commas, and `or` before the last. -/
inductive Listed : List Str → Str → Prop
  | one {w} : Listed [w] w
  | two {v w} : Listed [v, w] (v ++ " or ".toList ++ w)
  | more {w ws t} : 2 ≤ ws.length → Listed ws t → Listed (w :: ws) (w ++ ", ".toList ++ t)

/-- Order of expectations: alphabetical, the end of the text last. -/
def Ordered (v w : Str) : Prop :=
  w = "EOF".toList ∨ v <+: w ∨ ∃ p a b s t, v = p ++ a :: s ∧ w = p ++ b :: t ∧ a < b

/-! ### Diagnoses -/

/-- The message, with the reported length, is true of the text `u` after `pre` and before `post`. -/
inductive Diagnosis (pre u post : Str) : Str → Nat → Prop
  /-- An integer that does not fit 64 bits. -/
  | integer {m a n} : ValuePlace E pre → Minus m → a ≠ [] → AllDigits a → u = m ++ a → NoDigit post →
      IntText u n → ¬ (-(2 ^ 63 : Int) ≤ n ∧ n < 2 ^ 63) →
      Diagnosis pre u post ("invalid integer value [".toList ++ u ++ "]".toList) 1
  /-- A number too large for a double. -/
  | float {m a b q} : ValuePlace E pre → Minus m → a ≠ [] → AllDigits a → b ≠ [] → AllDigits b →
      u = m ++ (a ++ '.' :: b) → NoDigit post → DecText u q → (∀ x, toF64 q ≠ .fin x) →
      Diagnosis pre u post ("invalid float value [".toList ++ u ++ "]".toList) u.length
  /-- An address or block that does not exist. -/
  | network {v} : ValuePlace E pre → NetShape u → (∀ S, ¬ Denotes u S) →
      v = (if '/' ∈ u then u else u ++ "/32".toList) →
      Diagnosis pre u post ("invalid network value [".toList ++ v ++ "]: ".toList ++ E.netErr v) u.length
  /-- A day or instant that does not exist. -/
  | time : ValuePlace E pre → (DateShape u ∨ StampShape E u) → (∀ i, ¬ DayText u i) → (∀ i, ¬ StampText u i) →
      Diagnosis pre u post ("invalid datetime value [".toList ++ u ++ "]: ".toList ++ E.timeErr u) u.length
  /-- A regular expression that does not compile. -/
  | pattern {s v src} : ValuePlace E pre → RegexBody s → u = '/' :: (s ++ ['/']) → Unescaped u v → Trimmed v src →
      reCompiles E src = false →
      Diagnosis pre u post ("invalid regular expression [".toList ++ v ++ "]: ".toList ++ E.reErr src) u.length
  /-- A string with the code of half a character. -/
  | string {s} : Spelling E s → u = '"' :: (s ++ ['"']) → (∀ x, ¬ StrBody s x) →
      Diagnosis pre u post "invalid string: invalid syntax".toList u.length
  /-- A string that is not closed: here it neither ends nor goes on. -/
  | openString {q s} : pre = q ++ '"' :: s → Spelling E s → Stuck (Spelling E) '"' post → u = [] →
      Diagnosis pre u post
        "unterminated string, check for missing closing [\"] or unescaped [\\]".toList 1
  /-- A regular expression that is not closed. -/
  | openPattern {q s} : pre = q ++ '/' :: s → ValuePlace E q → RegexBody s → Stuck RegexBody '/' post → u = [] →
      Diagnosis pre u post
        "unterminated regular expression, did you forget a closing '/'?".toList 1
  /-- A single value in parentheses. -/
  | single {w1 t x w2} : ValuesPlace E pre → Ws w1 → Lit E (pre ++ '(' :: w1) t x → Ws w2 →
      u = '(' :: (w1 ++ (t ++ (w2 ++ [')']))) →
      Diagnosis pre u post "unnecessary parenthesis for only one value".toList 1
  /-- A closing parenthesis instead of a value. -/
  | closing {t} : ValuePlace E pre → u = ')' :: t → Word u post →
      Diagnosis pre u post "unexpected closing parenthesis, expecting values".toList 1
  /-- A word that does not begin with a value. The suggestion is a string, and denotes the word if all its
  characters can be written. -/
  | unknown {s} : ValuePlace E pre → Word u post → (∀ t, u ≠ ')' :: t) →
      (∀ a b, u ++ post = a ++ b → ∀ x, ¬ Lit E pre a x) →
      ((∀ c ∈ u, WritableChar E c) → StrBody s u) →
      Diagnosis pre u post
        ("unknown type of value [".toList ++ u ++ "] -- did you mean \"".toList ++ s ++ "\"?".toList) 1
  /-- None of the expectations is met. They are listed in order, each once. -/
  | noMatch {ws t} : (∀ w ∈ ws, Unmet E w post) → ws.Nodup → ws.Pairwise Ordered → Listed ws t → u = [] →
      Diagnosis pre u post ("no match found, expected: ".toList ++ t) 1

end Aql.Spec
