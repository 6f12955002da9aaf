import Verif.Spec.Growth
/-!
When some document matches a query.
-/

namespace Aql.Spec

/-- The query holds if its comparisons are judged by `P`, each on its own. -/
def Judged (P : Node → Prop) : Node → Prop
  | .and l r => Judged P l ∧ Judged P r
  | .or l r => Judged P l ∨ Judged P r
  | .not e => ¬ Judged P e
  | .subdoc _ _ => False
  | .expr op f vs p => P (.expr op f vs p)

variable (E : Env)

/-- Every text can be written as a JSON string. -/
def Spellable : Prop := ∀ k, ∃ raw, E.unescape raw = some k

/-- The largest double. -/
def largest : ℚ := 2 ^ 1024 - 2 ^ 971

/-- Some text is recognised as a time whose nanoseconds since 1970, in 64 bits, are `w`. -/
def Dated (w : Int) : Prop := ∃ t i, E.dateparse t = some i ∧ Int64Of i w

/-- Something is equal to the literal: patterns, times and strings that the library searches for depend on the library. -/
def CanEqual : Val → Prop
  | .str lit _ => (∃ c ∈ lit, 128 ≤ c.toNat) → (∀ c ∈ lit, c ≠ '?' ∧ c ≠ '*') → ∃ t, E.looseIndex lit t = true
  | .regex _ src _ => ∃ t, reMatchString E src t = true
  | .time _ t true _ => ∃ w lo hi, Dated E w ∧ Int64Of t lo ∧
      (∃ h, Int64Of (t + 86400 * 10 ^ 9) h ∧ Int64Of (h - 1) hi) ∧ lo ≤ w ∧ w ≤ hi
  | .time _ t false _ => ∃ w, Dated E w ∧ Int64Of t w
  | _ => True

/-- Something is below or above the literal: infinities are beyond the largest doubles, if a text is read as such. -/
def CanCompare (op : Op) : Val → Prop
  | .time _ t _ _ => ∃ w c, Dated E w ∧ Int64Of t c ∧ IRel op w c
  | v => (op = .LT → NumLit v (.fin (-largest)) → ∃ raw, ReadAs E raw (.inf true)) ∧
      (op = .GT → NumLit v (.fin largest) → ∃ raw, ReadAs E raw (.inf false))

/-- Something is between the literals. -/
def CanBetween : Val → Val → Prop
  | .time _ ta _ _, .time _ tb _ _ => ∃ w lo hi, Dated E w ∧ Int64Of ta lo ∧ Int64Of tb hi ∧ lo ≤ w ∧ w ≤ hi
  | _, _ => True

/-- Some value meets the comparison. -/
def CanMatch (op : Op) (vs : List Val) : Prop :=
  match op with
  | .EXS | .NUL => True
  | .EQ | .SIM => ∃ v ∈ vs, CanEqual E v
  | .LT | .LTE | .GT | .GTE => ∃ v ∈ vs, CanCompare E op v
  | .BET => ∃ a b, vs = [a, b] ∧ CanBetween E a b

/-- Some value meets the comparison, which is a tree of its own. -/
def Possible : Node → Prop
  | .expr op _ vs _ => CanMatch E op vs
  | _ => False

/-- A tree of `AND` and `OR`. -/
def Negationless : Node → Prop
  | .and l r => Negationless l ∧ Negationless r
  | .or l r => Negationless l ∧ Negationless r
  | .not _ => False
  | .subdoc _ _ => False
  | .expr op _ _ _ => op ≠ .NUL

/-- Literals about which the library has no say: all but patterns, times and strings outside ASCII. -/
def Tame : Val → Prop
  | .str lit _ => ∀ c ∈ lit, c.toNat < 128
  | .regex .. | .time .. => False
  | _ => True

end Aql.Spec
