import Verif.Model.StatsText

/-!
# The limiter of the bundled library (`/repo/libmy/my_rate.c`)

Numbers do not overflow (the clock is below 9 * 10^9 seconds).  The period is computed in floating point, which is not modelled: any
period may result.
-/

namespace Verif.Rate

/-- `struct my_rate`, `/repo/libmy/my_rate.c:25-29`, without what only `adjust_rate` uses. -/
structure Limiter where
  nextTick : Timespec
  period : Timespec
  count : Nat
  freq : Nat
  deriving DecidableEq

/-- `ts_nanos`, `/repo/libmy/my_rate.c:31-35`. -/
def tsNanos (t : Timespec) : Int := t.sec * 1000000000 + t.nsec

/-- The loop at `/repo/libmy/my_rate.c:54-57`. -/
def carry : Nat → Timespec → Timespec
  | 0, t => t
  | fuel + 1, t => if t.nsec ≥ 1000000000 then carry fuel ⟨t.sec + 1, t.nsec - 1000000000⟩ else t

/-- `calc_next_tick`, `/repo/libmy/my_rate.c:37-60`. -/
def calcNextTick (t m : Timespec) : Timespec :=
  let sec := if m.sec > 0 then t.sec - t.sec.tmod m.sec + m.sec else t.sec
  let nsec := if m.nsec > 0 then t.nsec - t.nsec.tmod m.nsec + m.nsec else 0
  carry nsec.toNat ⟨sec, nsec⟩

/-- `my_rate_init`, `/repo/libmy/my_rate.c:95-112`, with the period that lines 108 and 109 compute. -/
def init (freq : Nat) (period : Timespec) : Limiter := ⟨⟨0, 0⟩, period, 0, freq⟩

/-- What a call of `my_rate_sleep` finds: the clock at `/repo/libmy/my_rate.c:146` and, after a sleep, at line 181, and the period that
`adjust_rate` computes (line 92). -/
structure Finds where
  before : Timespec
  after : Timespec
  adjusted : Timespec

/-- What a call of `my_rate_sleep` does (`/repo/libmy/my_rate.c:123-186`): until when it sleeps, if it does; the last time that it reads
from the clock; the period. -/
structure Did where
  till : Option Timespec
  time : Timespec
  period : Timespec
  deriving DecidableEq

/-- `my_rate_sleep`, `/repo/libmy/my_rate.c:123-186`. -/
def sleep (r : Limiter) (f : Finds) : Limiter × Did :=
  let r := { r with count := r.count + 1 }
  let r := if r.count = 1 then { r with nextTick := calcNextTick f.before r.period } else r
  let r := if r.freq ≠ 0 ∧ r.count % r.freq = 0 ∧ r.count > r.freq then { r with period := f.adjusted } else r
  let til := timespecSub f.before r.nextTick
  let now := if tsNanos til > 0 then f.after else f.before
  ({ r with nextTick := calcNextTick now r.period },
    ⟨if tsNanos til > 0 then some r.nextTick else none, now, r.period⟩)

/-- Calls of `my_rate_sleep` one after the other (`/repo/libmy/my_rate.c:123-186`). -/
def sleeps : Limiter → List Finds → List Did
  | _, [] => []
  | r, f :: fs =>
    let (r, d) := sleep r f
    d :: sleeps r fs

end Verif.Rate
