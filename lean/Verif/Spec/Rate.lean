import Verif.Model.Rate

/-!
# What a limiter should do
-/

namespace Verif.Spec
open Verif.Rate

/-- A time as the clock gives it. -/
def ClockTime (t : Timespec) : Prop := 0 ≤ t.sec ∧ 0 ≤ t.nsec ∧ t.nsec < 1000000000

/-- A time in nanoseconds. -/
def inNanos (t : Timespec) : Int := 1000000000 * t.sec + t.nsec

/-- The clock gives times, and no sleep ended before its time. -/
def SleptWell (fs : List Finds) (ds : List Did) : Prop :=
  (∀ f ∈ fs, ClockTime f.before ∧ ClockTime f.after) ∧ ∀ d ∈ ds, ∀ t, d.till = some t → inNanos t ≤ inNanos d.time

/-- A call after another: it is at least a nanosecond later, and sleeps, if at all, until some time after the first returned, but not
until more than a period after that. -/
def Paced (a b : Did) : Prop :=
  inNanos a.time < inNanos b.time ∧ ∀ t, b.till = some t → inNanos a.time < inNanos t ∧ inNanos t ≤ inNanos a.time + inNanos a.period

/-- Each element and the next are related. -/
def Chained {α : Type} (R : α → α → Prop) : List α → Prop
  | a :: b :: l => R a b ∧ Chained R (b :: l)
  | _ => True

end Verif.Spec
