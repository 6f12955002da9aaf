import Verif.Spec.Number
/-!
Independent specification of calendar dates (proleptic Gregorian).
-/

namespace Aql.Spec

def Leap (y : Nat) : Prop := (4 ∣ y ∧ ¬ 100 ∣ y) ∨ 400 ∣ y

instance (y : Nat) : Decidable (Leap y) := by unfold Leap; infer_instance

/-- Length of a month. -/
def monthLength (y m : Nat) : Nat :=
  [31, if Leap y then 29 else 28, 31, 30, 31, 30, 31, 31, 30, 31, 30, 31].getD (m - 1) 0

structure Date where
  y : Nat
  m : Nat
  d : Nat

/-- An existing day. -/
def Date.Valid (x : Date) : Prop := 1 ≤ x.m ∧ x.m ≤ 12 ∧ 1 ≤ x.d ∧ x.d ≤ monthLength x.y x.m

/-- The day after. -/
def Date.next (x : Date) : Date :=
  if x.d < monthLength x.y x.m then ⟨x.y, x.m, x.d + 1⟩
  else if x.m < 12 then ⟨x.y, x.m + 1, 1⟩
  else ⟨x.y + 1, 1, 1⟩

/-- Calendar order. -/
def Date.Before (a b : Date) : Prop :=
  a.y < b.y ∨ (a.y = b.y ∧ (a.m < b.m ∨ (a.m = b.m ∧ a.d < b.d)))

/-- `YYYY-MM-DD`. -/
def DateText (s : Str) (x : Date) : Prop :=
  ∃ a b c, AllDigits a ∧ a.length = 4 ∧ AllDigits b ∧ b.length = 2 ∧ AllDigits c ∧ c.length = 2 ∧
    s = a ++ '-' :: (b ++ '-' :: c) ∧ x.y = digitsValue a ∧ x.m = digitsValue b ∧ x.d = digitsValue c

/-- `hh:mm:ss`, valid time of day, as seconds since midnight. -/
def ClockText (s : Str) (secs : Nat) : Prop :=
  ∃ h m sec, AllDigits h ∧ h.length = 2 ∧ AllDigits m ∧ m.length = 2 ∧ AllDigits sec ∧
    sec.length = 2 ∧ s = h ++ ':' :: (m ++ ':' :: sec) ∧
    digitsValue h ≤ 23 ∧ digitsValue m ≤ 59 ∧ digitsValue sec ≤ 59 ∧
    secs = digitsValue h * 3600 + digitsValue m * 60 + digitsValue sec

/-- Optional fraction of a second, in nanoseconds (digits after the ninth are dropped). -/
inductive FractionText : Str → Nat → Prop
  | none : FractionText [] 0
  | frac {ds} : ds ≠ [] → AllDigits ds →
      FractionText ('.' :: ds) (digitsValue ds * 10 ^ 9 / 10 ^ ds.length)

/-- `Z` or `±hh:mm` (hours up to 24 and minutes up to 60, as Go accepts them): seconds east. -/
inductive ZoneText : Str → Int → Prop
  | utc : ZoneText ['Z'] 0
  | offset {sg h m} : AllDigits h → h.length = 2 → AllDigits m → m.length = 2 →
      digitsValue h ≤ 24 → digitsValue m ≤ 60 → sg = '+' ∨ sg = '-' →
      ZoneText (sg :: (h ++ ':' :: m))
        ((if sg = '-' then -1 else 1) * (digitsValue h * 3600 + digitsValue m * 60 : Nat))

/-- `n` is the number of days from 1970-01-01 to `x`: counting days one by one. -/
inductive DayCount : Date → Int → Prop
  | epoch : DayCount ⟨1970, 1, 1⟩ 0
  | forward {x n} : DayCount x n → DayCount x.next (n + 1)
  | backward {x n} : x.Valid → DayCount x.next (n + 1) → DayCount x n

/-- Nanoseconds in a day. -/
def dayNanos : Int := 86400 * 10 ^ 9

/-- `s` is a timestamp: date, `T`, clock, optional fraction, zone. `i` is the instant it denotes, in
nanoseconds since 1970-01-01T00:00:00Z. -/
def StampText (s : Str) (i : Int) : Prop :=
  ∃ dt x n ct secs ft ns zt off, DateText dt x ∧ x.Valid ∧ DayCount x n ∧
    ClockText ct secs ∧ FractionText ft ns ∧ ZoneText zt off ∧
    s = dt ++ 'T' :: (ct ++ (ft ++ zt)) ∧ i = n * dayNanos + ((secs : Int) - off) * 10 ^ 9 + ns

/-- `s` is a day literal; `i` is the beginning of that day. -/
def DayText (s : Str) (i : Int) : Prop :=
  ∃ x, DateText s x ∧ x.Valid ∧ ∃ n, DayCount x n ∧ i = n * dayNanos

end Aql.Spec
