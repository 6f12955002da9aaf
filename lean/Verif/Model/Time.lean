import Verif.Model.Basic
/-!
Instants and the two `time.Parse` layouts used by `NewTimeVal`.

An instant (`time.Time` in UTC, as far as the code observes it) is an unbounded integer number of
nanoseconds since 1970-01-01T00:00:00Z. `UnixNano` reduces it to int64 with wrap-around, which is
what Go's `t.unixSec()*1e9 + int64(t.nsec())` computes.
-/

namespace Aql

/-- Go `time` package: leap year rule (`isLeap`). -/
def isLeap (y : Nat) : Bool := y % 4 == 0 && (y % 100 != 0 || y % 400 == 0)

/-- Go `time` package: `daysIn(month, year)`. -/
def daysIn (y m : Nat) : Nat :=
  match m with
  | 2 => if isLeap y then 29 else 28
  | 4 => 30
  | 6 => 30
  | 9 => 30
  | 11 => 30
  | _ => 31

/-- Go `time` package: `daysBefore[month-1]`, cumulative days before month `m`, plus the leap day. -/
def daysBeforeMonth (y m : Nat) : Nat :=
  let base :=
    match m with
    | 0 => 0 | 1 => 0 | 2 => 31 | 3 => 59 | 4 => 90 | 5 => 120 | 6 => 151
    | 7 => 181 | 8 => 212 | 9 => 243 | 10 => 273 | 11 => 304 | _ => 334
  if 2 < m && isLeap y then base + 1 else base

/-- Days from 0000-01-01 to `y`-01-01 in the proleptic Gregorian calendar
(Go `time.daysSinceEpoch`, closed form). -/
def daysBeforeYear (y : Nat) : Nat :=
  match y with
  | 0 => 0
  | n + 1 => 366 + n * 365 + n / 4 - n / 100 + n / 400

/-- Days from 1970-01-01 to the given civil date (719528 = days from 0000-01-01 to 1970-01-01). -/
def dayNumber (y m d : Nat) : Int :=
  (daysBeforeYear y + daysBeforeMonth y m + (d - 1) : Nat) - 719528

/-- Nanoseconds of a second (package time). -/
def nsPerSec : Int := 1000000000
/-- Nanoseconds of a day (package time). -/
def nsPerDay : Int := 86400 * 1000000000

/-- `time.Date(y, m, d, hh, mm, ss, nsec, UTC)` shifted by a zone offset in seconds. -/
def instant (y m d hh mm ss nsec : Nat) (offSec : Int) : Int :=
  dayNumber y m d * nsPerDay + ((hh * 3600 + mm * 60 + ss : Nat) - offSec) * nsPerSec + nsec

/-- Two decimal digits. -/
def two (a b : Char) : Option Nat :=
  if isDig a && isDig b then some (digVal a * 10 + digVal b) else none

/-- `YYYY-MM-DD` prefix: year, month, day (with the range checks of time.Parse) and the rest. -/
def parseDatePart : Str → Option (Nat × Nat × Nat × Str)
  | y1 :: y2 :: y3 :: y4 :: '-' :: m1 :: m2 :: '-' :: d1 :: d2 :: rest => do
    let ya ← two y1 y2
    let yb ← two y3 y4
    let m ← two m1 m2
    let d ← two d1 d2
    let y := ya * 100 + yb
    if 1 ≤ m ∧ m ≤ 12 ∧ 1 ≤ d ∧ d ≤ daysIn y m then some (y, m, d, rest) else none
  | _ => none

/-- Layout `2006-01-02` (parser/ast/ast.go:430). -/
def parseDay (s : Str) : Option Int :=
  match parseDatePart s with
  | some (y, m, d, []) => some (instant y m d 0 0 0 0 0)
  | _ => none

/-- Fractional seconds: digits after the point, truncated to nanoseconds. -/
def fracNanos (ds : Str) : Nat :=
  let t := ds.take 9
  natOfDigits t * 10 ^ (9 - t.length)

/-- Zone suffix `Z` or `±hh:mm` in seconds east of UTC (time.Parse accepts hh up to 24 and mm up
to 60). -/
def parseZone : Str → Option Int
  | ['Z'] => some 0
  | [sg, h1, h2, ':', m1, m2] => do
    let h ← two h1 h2
    let m ← two m1 m2
    if h ≤ 24 ∧ m ≤ 60 then
      let s : Int := (h * 3600 + m * 60 : Nat)
      if sg = '+' then some s else if sg = '-' then some (-s) else none
    else none
  | _ => none

/-- Layout RFC3339 (parser/ast/ast.go:433): upper-case `T` and `Z` only; a fractional second may
follow the seconds although the layout does not mention it. time.Parse also accepts a one-digit
hour and a comma before the fraction; the grammar never passes such text (aql.peg Timestamp rules)
and it is not modelled. -/
def parseRFC3339 (s : Str) : Option Int :=
  match parseDatePart s with
  | some (y, mo, d, 'T' :: h1 :: h2 :: ':' :: m1 :: m2 :: ':' :: s1 :: s2 :: rest) => do
    let hh ← two h1 h2
    let mm ← two m1 m2
    let ss ← two s1 s2
    if hh ≤ 23 ∧ mm ≤ 59 ∧ ss ≤ 59 then
      match rest with
      | '.' :: t =>
        let ds := t.takeWhile isDig
        if ds = [] then none
        else do
          let off ← parseZone (t.dropWhile isDig)
          some (instant y mo d hh mm ss (fracNanos ds) off)
      | t => do
        let off ← parseZone t
        some (instant y mo d hh mm ss 0 off)
    else none
  | _ => none

/-- int64 wrap-around. -/
def wrap64 (x : Int) : Int := Int.bmod x (2 ^ 64)

/-- `time.Time.UnixNano`. -/
def unixNano (t : Int) : Int := wrap64 t

end Aql
