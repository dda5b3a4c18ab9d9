import Verif.Spec.Text
import Verif.Model.Time

/-!
# UTC time stamps

The Gregorian calendar without leap seconds, by counting days from 1970-01-01.
-/

namespace Verif.Spec

/-- Leap years. -/
def leap (y : Nat) : Bool := y % 4 = 0 && (y % 100 ≠ 0 || y % 400 = 0)

/-- Days of a year. -/
def yearLen (y : Nat) : Nat := if leap y then 366 else 365

/-- Days of month `m` (1 to 12) of year `y`. -/
def monthLen (y m : Nat) : Nat :=
  if m = 2 then (if leap y then 29 else 28)
  else if m = 4 ∨ m = 6 ∨ m = 9 ∨ m = 11 then 30
  else 31

/-- Days of the first `n` years from 1970 on. -/
def daysOfYears : Nat → Nat
  | 0 => 0
  | n + 1 => daysOfYears n + yearLen (1970 + n)

/-- Days of the first `m` months of year `y`. -/
def daysOfMonths (y : Nat) : Nat → Nat
  | 0 => 0
  | m + 1 => daysOfMonths y m + monthLen y (m + 1)

/-- A date and time of day; months and days count from 1. -/
structure Stamp where
  year : Nat
  month : Nat
  day : Nat
  hour : Nat
  minute : Nat
  second : Nat
deriving DecidableEq, Repr

/-- The date exists, from 1970 on. -/
def Stamp.Valid (t : Stamp) : Prop :=
  1970 ≤ t.year ∧ 1 ≤ t.month ∧ t.month ≤ 12 ∧ 1 ≤ t.day ∧ t.day ≤ monthLen t.year t.month ∧
    t.hour < 24 ∧ t.minute < 60 ∧ t.second < 60

instance (t : Stamp) : Decidable t.Valid := inferInstanceAs (Decidable (_ ∧ _))

/-- Seconds since 1970-01-01T00:00:00Z. -/
def Stamp.seconds (t : Stamp) : Nat :=
  let days := daysOfYears (t.year - 1970) + daysOfMonths t.year (t.month - 1) + (t.day - 1)
  ((days * 24 + t.hour) * 60 + t.minute) * 60 + t.second

/-- The last second of the year 9999. -/
def endOf9999 : Nat := 253402300799

/-- The date and time as a `struct tm`: years from 1900, months from 0. -/
def Stamp.tm (t : Stamp) : Tm :=
  ⟨(t.year : Int) - 1900, (t.month : Int) - 1, t.day, t.hour, t.minute, t.second⟩

/-- What is assumed of libc's `gmtime_r`: up to the year 9999 it finds the date of a time. -/
def GmtimeOk (gmtime : Int → Option Tm) : Prop :=
  ∀ t : Stamp, t.Valid → t.seconds ≤ endOf9999 → gmtime t.seconds = some t.tm

/-- Reads `YYYY-MM-DDThh:mm:ssZ` and gives the time in seconds since 1970. -/
def readStamp : Bytes → Option Nat
  | [y1, y2, y3, y4, 45, m1, m2, 45, d1, d2, 84, h1, h2, 58, n1, n2, 58, s1, s2, 90] =>
    let t : Stamp := ⟨numval [y1, y2, y3, y4], numval [m1, m2], numval [d1, d2], numval [h1, h2], numval [n1, n2],
      numval [s1, s2]⟩
    if (∀ c ∈ [y1, y2, y3, y4, m1, m2, d1, d2, h1, h2, n1, n2, s1, s2], IsDigit c) ∧ t.Valid then some t.seconds
    else none
  | _ => none

end Verif.Spec
