import Verif.Model.Ast
import Verif.Spec.Resolve
import Verif.Spec.FormatFloat
import Verif.Spec.Glob
import Verif.Spec.Net
/-!
Independent, declarative meaning of queries (README). Uses the AST, the document type, the
library functions of the environment, and none of the matcher's code.
-/

namespace Aql.Spec

variable (E : Env)

/-- The text is read as the number `f`: decimal text is rounded to the nearest double, if that is in range. Other text
(hexadecimal numbers, infinities, NaN) is up to the library, with the same rounding. -/
inductive ReadAs : Str → F64 → Prop
  | decimal {raw q x} : DecText raw q → RoundsTo q x → |x| < 2 ^ (1024 : ℤ) → ReadAs raw (.fin x)
  | exact {raw q x} : (∀ q, ¬ DecText raw q) → E.parseFloatOther raw = some (.fin q) → RoundsTo q x →
      |x| < 2 ^ (1024 : ℤ) → ReadAs raw (.fin x)
  | special {raw f} : (∀ q, ¬ DecText raw q) → E.parseFloatOther raw = some f → (∀ x, f ≠ .fin x) → ReadAs raw f

/-- `s` is a number, or a string whose text is a number, with value `f`. -/
inductive NumberOf : Json → F64 → Prop
  | num {raw f} : ReadAs E raw f → NumberOf (.num raw) f
  | str {raw f} : ReadAs E raw f → NumberOf (.str raw) f

/-- Text of a scalar: the unescaped string, or the number printed back (a zero with its sign). -/
inductive TextOf : Json → Str → Prop
  | str {raw t} : E.unescape raw = some t → TextOf (.str raw) t
  | num {raw f z t} : ReadAs E raw f → (z = true ↔ f = .fin 0 ∧ ∃ t, raw = '-' :: t) → NumberText z f t →
      TextOf (.num raw) t

/-- Two's complement 64-bit reading of an integer. -/
def Int64Of (x w : Int) : Prop := -(2 ^ 63 : Int) ≤ w ∧ w < 2 ^ 63 ∧ ∃ k, x = w + k * 2 ^ 64

/-- The scalar's text is recognised as a time whose nanoseconds since 1970, in 64 bits, are `w`. -/
def NanosOf (s : Json) (w : Int) : Prop :=
  ∃ t i, TextOf E s t ∧ E.dateparse t = some i ∧ Int64Of i w

/-- The double a numeric literal stands for. -/
inductive NumLit : Val → F64 → Prop
  | int {i sv pos} : NumLit (.int i sv pos) (toF64 (i : ℚ))
  | float {f z pos} : NumLit (.float f z pos) f

/-- A string literal holds of a text: accent-insensitive search (library) for non-ASCII literals
without wildcards, wildcard search otherwise. -/
def StrHolds (lit text : Str) : Prop :=
  if (∃ c ∈ lit, 128 ≤ c.toNat) ∧ ¬ (∃ c ∈ lit, c = '?' ∨ c = '*') then
    E.looseIndex lit text = true
  else
    Occurs (fun a b => foldEq E a b = true) (∀ c ∈ toLower E lit, c.toNat < 128)
      (toLower E lit) text

/-- Equality with one literal, on one scalar. -/
def EqHolds (v : Val) (s : Json) : Prop :=
  match v with
  | .str lit _ => ∃ t, TextOf E s t ∧ StrHolds E lit t
  | .regex _ src _ => ∃ t, TextOf E s t ∧ reMatchString E src t = true
  | .int .. | .float .. => ∃ f c, NumberOf E s f ∧ NumLit v c ∧ FEq f c
  | .bool b _ => s = .bool b
  | .net _ p _ => ∃ t, TextOf E s t ∧ Mentions t (Block p.addr p.bits)
  | .time _ t true _ => ∃ w lo hi, NanosOf E s w ∧ Int64Of t lo ∧
      (∃ h, Int64Of (t + 86400 * 10 ^ 9) h ∧ Int64Of (h - 1) hi) ∧ lo ≤ w ∧ w ≤ hi
  | .time _ t false _ => ∃ w, NanosOf E s w ∧ Int64Of t w

/-- The order relation of a comparison operator on doubles. -/
def FRel : Op → F64 → F64 → Prop
  | .LT, a, b => FLt a b
  | .LTE, a, b => FLe a b
  | .GT, a, b => FLt b a
  | .GTE, a, b => FLe b a
  | _, _, _ => False

/-- The order relation of a comparison operator on 64-bit times. -/
def IRel : Op → Int → Int → Prop
  | .LT, a, b => a < b
  | .LTE, a, b => a ≤ b
  | .GT, a, b => b < a
  | .GTE, a, b => b ≤ a
  | _, _, _ => False

/-- `<`, `<=`, `>`, `>=` on one scalar. -/
def CmpHolds (op : Op) (v : Val) (s : Json) : Prop :=
  (∃ f c, NumberOf E s f ∧ NumLit v c ∧ FRel op f c) ∨
  (∃ sv t d pos w c, v = .time sv t d pos ∧ NanosOf E s w ∧ Int64Of t c ∧ IRel op w c)

/-- A between bound as a double; an operand that is not a number counts as zero. -/
def BoundLit (v : Val) (c : F64) : Prop :=
  NumLit v c ∨ ((∀ c', ¬ NumLit v c') ∧ c = .fin 0)

/-- `><` on one scalar. -/
def BetHolds (a b : Val) (s : Json) : Prop :=
  (∃ f lo hi, NumberOf E s f ∧ NumLit a lo ∧ BoundLit b hi ∧ FLe lo f ∧ FLe f hi) ∨
  (∃ sa ta da pa sb tb db pb w lo hi, a = .time sa ta da pa ∧ b = .time sb tb db pb ∧
    NanosOf E s w ∧ Int64Of ta lo ∧ Int64Of tb hi ∧ lo ≤ w ∧ w ≤ hi)

/-- Meaning of a query on a document. -/
def Sat (d : Json) : Node → Prop
  | .and l r => Sat d l ∧ Sat d r
  | .or l r => Sat d l ∨ Sat d r
  | .not e => ¬ Sat d e
  | .subdoc _ _ => False
  | .expr op path vs _ =>
    match op with
    | .EXS => ∃ v, Resolves E d path v
    | .NUL => (∃ v, Resolves E d path v) ∧ ∀ v, Resolves E d path v → v = .null
    | .EQ | .SIM => ∃ v ∈ vs, ∃ s, ScalarUnder E d path s ∧ EqHolds E v s
    | .LT | .LTE | .GT | .GTE => ∃ v ∈ vs, ∃ s, ScalarUnder E d path s ∧ CmpHolds E op v s
    | .BET => ∃ a b, vs = [a, b] ∧ ∃ s, ScalarUnder E d path s ∧ BetHolds E a b s

/-- The type of a literal. -/
def typeOf : Val → ValType
  | .str .. => .string
  | .bool .. => .bool
  | .int .. => .int
  | .float .. => .float
  | .time .. => .time
  | .net .. => .net
  | .regex .. => .regex

@[simp] theorem typeOf_eq (v : Val) : typeOf v = v.type := by cases v <;> rfl

/-- Types of literals an operator accepts. -/
def OperandOk (op : Op) (v : Val) : Prop :=
  match op with
  | .LT | .LTE | .GT | .GTE | .BET => typeOf v = .int ∨ typeOf v = .float ∨ typeOf v = .time
  | .SIM => typeOf v = .string ∨ typeOf v = .regex ∨ typeOf v = .bool
  | .EQ => True
  | .EXS | .NUL => False

/-- Number of literals an operator accepts. -/
def ArityOk (op : Op) (n : Nat) : Prop :=
  match op with
  | .LT | .LTE | .GT | .GTE => n = 1
  | .BET => n = 2
  | .EQ | .SIM => 1 ≤ n
  | .EXS | .NUL => n = 0

/-- The rule for the operands of `><`: two datetimes in chronological order, or a number and a
number (anything else counting as zero) where the second is not below or equal to the first. -/
def BetweenOk (a b : Val) : Prop :=
  (∃ sa ta da pa sb tb db pb, a = .time sa ta da pa ∧ b = .time sb tb db pb ∧ ta < tb) ∨
  (typeOf a ≠ .time ∧ ∃ l r, BoundLit a l ∧ BoundLit b r ∧ ¬ FLe r l)

/-- The typing rules of a comparison. -/
structure ExprOk (op : Op) (vs : List Val) : Prop where
  arity : ArityOk op vs.length
  types : ∀ v ∈ vs, OperandOk op v
  distinct : (vs.map (Val.toStr E)).Nodup
  noConflict : op = .EQ → ¬ ("true".toList ∈ vs.map (Val.toStr E) ∧
    "false".toList ∈ vs.map (Val.toStr E))
  between : ∀ a b, op = .BET → vs = [a, b] → BetweenOk a b

/-- Every comparison of the query obeys the typing rules. -/
def AllOk : Node → Prop
  | .and l r => AllOk l ∧ AllOk r
  | .or l r => AllOk l ∧ AllOk r
  | .not e => AllOk e
  | .subdoc _ e => AllOk e
  | .expr op _ vs _ => ExprOk E op vs

/-- No sub-document node (the grammar does not produce them). -/
def NoSubdoc : Node → Prop
  | .and l r => NoSubdoc l ∧ NoSubdoc r
  | .or l r => NoSubdoc l ∧ NoSubdoc r
  | .not e => NoSubdoc e
  | .subdoc _ _ => False
  | .expr .. => True

/-- A network literal is a prefix of an IPv4 address. -/
def LitOk : Val → Prop
  | .net _ p _ => p.addr < 2 ^ 32 ∧ p.bits ≤ 32
  | _ => True

/-- Every literal of the query satisfies `P`. -/
def LitsIn (P : Val → Prop) : Node → Prop
  | .and l r => LitsIn P l ∧ LitsIn P r
  | .or l r => LitsIn P l ∧ LitsIn P r
  | .not e => LitsIn P e
  | .subdoc _ e => LitsIn P e
  | .expr _ _ vs _ => ∀ v ∈ vs, P v

/-- The path has a segment and, if the document is an array, its first segment is not empty and does
not begin with `[` (those are array subscripts to the JSON library). -/
def Plain (d : Json) (path : List Str) : Prop :=
  ∃ k rest, path = k :: rest ∧ ((∃ xs, d = .arr xs) → ∃ c s, k = c :: s ∧ c ≠ '[')

/-- Every path of the query satisfies `P`. -/
def PathsIn (P : List Str → Prop) : Node → Prop
  | .and l r => PathsIn P l ∧ PathsIn P r
  | .or l r => PathsIn P l ∧ PathsIn P r
  | .not e => PathsIn P e
  | .subdoc _ e => PathsIn P e
  | .expr _ f _ _ => P f

end Aql.Spec
