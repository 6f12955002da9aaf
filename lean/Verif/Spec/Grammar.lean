import Verif.Spec.Text
import Verif.Spec.Calendar
import Verif.Spec.Net
import Verif.Model.Ast
/-!
The query language: which texts are queries and what tree each denotes. Written as production rules,
without any notion of a parser. Every rule also carries the text before (`pre`), because nodes and
values record positions.

`E.lower` (unicode.ToLower) decides which non-ASCII characters may occur in a bare field name, and
the regular expression library which patterns compile; everything else is concrete.
-/

namespace Aql.Spec

/-- Position of the token `t` that follows the text `pre`. -/
def posAt (pre t : Str) : Pos := ⟨lineOf pre, colOf pre, bytesOf pre, t.length⟩

def IsWs (c : Char) : Prop := c = ' ' ∨ c = '\n' ∨ c = '\t' ∨ c = '\r'

instance (c : Char) : Decidable (IsWs c) := by unfold IsWs; infer_instance

/-- Optional white space. -/
def Ws (w : Str) : Prop := ∀ c ∈ w, IsWs c

instance (w : Str) : Decidable (Ws w) := by unfold Ws; infer_instance

/-- White space. -/
def Space (w : Str) : Prop := Ws w ∧ w ≠ []

instance (w : Str) : Decidable (Space w) := by unfold Space; infer_instance

/-! ### Literals -/

/-- One-character escapes of strings. -/
inductive Escape : Char → Char → Prop
  | quote : Escape '"' '"'
  | backslash : Escape '\\' '\\'
  | b : Escape 'b' '\x08'
  | f : Escape 'f' '\x0c'
  | n : Escape 'n' '\n'
  | r : Escape 'r' '\r'
  | t : Escape 't' '\t'

/-- Hexadecimal digit and its value. -/
inductive HexVal : Char → Nat → Prop
  | digit {c} : '0' ≤ c → c ≤ '9' → HexVal c (c.toNat - 48)
  | lower {c} : 'a' ≤ c → c ≤ 'f' → HexVal c (c.toNat - 87)
  | upper {c} : 'A' ≤ c → c ≤ 'F' → HexVal c (c.toNat - 55)

/-- Text between double quotes and the string it denotes. -/
inductive StrBody : Str → Str → Prop
  | nil : StrBody [] []
  | plain {c s x} : c ≠ '"' → c ≠ '\\' → 32 ≤ c.toNat → StrBody s x → StrBody (c :: s) (c :: x)
  | escape {c d s x} : Escape c d → StrBody s x → StrBody ('\\' :: c :: s) (d :: x)
  | unicode {a b c d ha hb hc hd v s x} : HexVal a ha → HexVal b hb → HexVal c hc → HexVal d hd →
      v = ha * 4096 + hb * 256 + hc * 16 + hd → v.isValidChar → StrBody s x →
      StrBody ('\\' :: 'u' :: a :: b :: c :: d :: s) (Char.ofNat v :: x)

/-- Text between the slashes of a regular expression. -/
inductive RegexBody : Str → Prop
  | nil : RegexBody []
  | plain {c s} : c ≠ '/' → c ≠ '\\' → c ≠ '\n' → RegexBody s → RegexBody (c :: s)
  | escape {c s} : c ≠ '\n' → RegexBody s → RegexBody ('\\' :: c :: s)

/-- Every `\/` replaced by `/`. -/
inductive Unescaped : Str → Str → Prop
  | nil : Unescaped [] []
  | slash {s u} : Unescaped s u → Unescaped ('\\' :: '/' :: s) ('/' :: u)
  | other {c s u} : (c = '\\' → ∀ t, s ≠ '/' :: t) → Unescaped s u → Unescaped (c :: s) (c :: u)

/-- `src` is `u` without its slashes at both ends. -/
def Trimmed (u src : Str) : Prop :=
  ∃ i j, u = List.replicate i '/' ++ (src ++ List.replicate j '/') ∧ src.head? ≠ some '/' ∧
    src.getLast? ≠ some '/'

/-- Optional minus sign. -/
def Minus (s : Str) : Prop := s = [] ∨ s = ['-']

/-- The text is a literal and denotes the value. -/
inductive Lit (E : Env) (pre : Str) : Str → Val → Prop
  | string {s x t} : StrBody s x → t = '"' :: (s ++ ['"']) → Lit E pre t (.str x (posAt pre t))
  | regex {s u src t} : RegexBody s → t = '/' :: (s ++ ['/']) → Unescaped t u → Trimmed u src →
      reCompiles E src = true → Lit E pre t (.regex u src (posAt pre t))
  | stamp {t i} : StampText t i → Lit E pre t (.time t i false (posAt pre t))
  | day {t i} : DayText t i → Lit E pre t (.time t i true (posAt pre t))
  | address {t a} : AddrText t a → Lit E pre t (.net (t ++ "/32".toList) ⟨a, 32⟩ (posAt pre t))
  | block {t u a n} : AddrText u a → n ≤ 32 → t = u ++ '/' :: numeral n →
      Lit E pre t (.net t ⟨a, n⟩ (posAt pre t))
  | float {t m a b q x} : Minus m → a ≠ [] → AllDigits a → b ≠ [] → AllDigits b →
      t = m ++ (a ++ '.' :: b) → DecText t q → toF64 q = .fin x →
      Lit E pre t (.float (.fin x) (decide (x = 0 ∧ m = ['-'])) (posAt pre t))
  | int {t m a n} : Minus m → a ≠ [] → AllDigits a → t = m ++ a → IntText t n →
      -(2 ^ 63 : Int) ≤ n → n < 2 ^ 63 → Lit E pre t (.int n t (posAt pre t))
  | true_ : Lit E pre "true".toList (.bool true (posAt pre "true".toList))
  | false_ : Lit E pre "false".toList (.bool false (posAt pre "false".toList))

/-- Literals separated by commas. -/
inductive Items (E : Env) : Str → Str → List Val → Prop
  | one {pre t v} : Lit E pre t v → Items E pre t [v]
  | cons {pre t v w1 w2 s vs} : Lit E pre t v → Ws w1 → Ws w2 →
      Items E (pre ++ (t ++ (w1 ++ ',' :: w2))) s vs →
      Items E pre (t ++ (w1 ++ ',' :: (w2 ++ s))) (v :: vs)

/-- One literal, or at least two in parentheses. -/
inductive Values (E : Env) (pre : Str) : Str → List Val → Prop
  | one {t v} : Lit E pre t v → Values E pre t [v]
  | list {w1 w2 s vs} : Ws w1 → Items E (pre ++ '(' :: w1) s vs → 2 ≤ vs.length → Ws w2 →
      Values E pre ('(' :: (w1 ++ (s ++ (w2 ++ [')'])))) vs

/-! ### Comparisons -/

/-- Character of a bare field name. -/
def FieldChar (E : Env) (c : Char) : Prop :=
  let l := goLower E c
  ('a' ≤ l ∧ l ≤ 'z') ∨ ('0' ≤ l ∧ l ≤ '9') ∨ l = '_' ∨ l = '-'

/-- One segment of a path and the name it denotes. -/
inductive Piece (E : Env) : Str → Str → Prop
  | quoted {s x} : StrBody s x → Piece E ('"' :: (s ++ ['"'])) x
  | bare {s} : s ≠ [] → (∀ c ∈ s, FieldChar E c) → Piece E s s
  | star : Piece E ['*'] ['*']

/-- A path: segments separated by dots. -/
inductive Path (E : Env) : Str → List Str → Prop
  | one {t x} : Piece E t x → Path E t [x]
  | cons {t x s xs} : Piece E t x → Path E s xs → Path E (t ++ '.' :: s) (x :: xs)

/-- Segments `*` are left out of the path. -/
def withoutStars (xs : List Str) : List Str := xs.filter (· ≠ ['*'])

inductive NoArgOp : Str → Op → Prop
  | exists_ : NoArgOp "exists".toList .EXS
  | null : NoArgOp "null".toList .NUL

inductive OpText : Str → Op → Prop
  | eq : OpText [] .EQ
  | lt : OpText ['<'] .LT
  | lte : OpText ['<', '='] .LTE
  | gt : OpText ['>'] .GT
  | gte : OpText ['>', '='] .GTE
  | bet : OpText ['>', '<'] .BET
  | sim : OpText ['~'] .SIM

inductive NotWord : Str → Prop
  | word {w} : Space w → NotWord ('N' :: 'O' :: 'T' :: w)
  | bang {w} : Ws w → NotWord ('!' :: w)

/-- Binding strength. -/
inductive Level
  | or | and | not | cmp

/-- The text is an expression of the level and denotes the tree. -/
inductive Text (E : Env) : Level → Str → Str → Node → Prop
  | group {pre w1 s w2 n} : Ws w1 → Text E .or (pre ++ '(' :: w1) s n → Ws w2 →
      Text E .cmp pre ('(' :: (w1 ++ (s ++ (w2 ++ [')'])))) n
  | noArgs {pre p xs w1 w2 o op t} : Path E p xs → Ws w1 → Ws w2 → NoArgOp o op →
      t = p ++ (w1 ++ ':' :: (w2 ++ o)) →
      Text E .cmp pre t (.expr op (withoutStars xs) [] (posAt pre t))
  | compare {pre p xs w1 w2 o op w3 s vs t} : Path E p xs → Ws w1 → Ws w2 → OpText o op → Ws w3 →
      Values E (pre ++ (p ++ (w1 ++ ':' :: (w2 ++ (o ++ w3))))) s vs →
      t = p ++ (w1 ++ ':' :: (w2 ++ (o ++ (w3 ++ s)))) →
      Text E .cmp pre t (.expr op (withoutStars xs) vs (posAt pre t))
  | notCmp {pre s n} : Text E .cmp pre s n → Text E .not pre s n
  | not {pre k s n} : NotWord k → Text E .cmp (pre ++ k) s n → Text E .not pre (k ++ s) (.not n)
  | andNot {pre s n} : Text E .not pre s n → Text E .and pre s n
  | and {pre a l w1 w2 b r} : Text E .not pre a l → Space w1 → Space w2 →
      Text E .and (pre ++ (a ++ (w1 ++ ("AND".toList ++ w2)))) b r →
      Text E .and pre (a ++ (w1 ++ ("AND".toList ++ (w2 ++ b)))) (.and l r)
  | orAnd {pre s n} : Text E .and pre s n → Text E .or pre s n
  | or {pre a l w1 w2 b r} : Text E .and pre a l → Space w1 → Space w2 →
      Text E .or (pre ++ (a ++ (w1 ++ ("OR".toList ++ w2)))) b r →
      Text E .or pre (a ++ (w1 ++ ("OR".toList ++ (w2 ++ b)))) (.or l r)

/-- The whole text of a query. -/
def Query (E : Env) (s : Str) (n : Node) : Prop :=
  ∃ w1 q w2, Ws w1 ∧ Ws w2 ∧ Text E .or w1 q n ∧ s = w1 ++ (q ++ w2)

end Aql.Spec
