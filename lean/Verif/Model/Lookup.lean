import Verif.Model.Query

/-!
# The time options of `dnstable_lookup` (`/repo/src/dnstable_lookup.c`)

Parsing of the options is not modelled: the four times are given, 0 standing for an absent option
(`parse_time` returning 0 is refused, `/repo/src/dnstable_lookup.c:321-349`).
-/

namespace Verif

/-- The times of the options `-a`, `-A`, `-b`, `-B` (`/repo/src/dnstable_lookup.c:310-311`). -/
structure CliTimes where
  firstAfter : Nat := 0
  lastAfter : Nat := 0
  lastBefore : Nat := 0
  firstBefore : Nat := 0
deriving DecidableEq, Repr

/-- The `if (time_strict)` block, `/repo/src/dnstable_lookup.c:546-559`. -/
def strictTimes (t : CliTimes) : CliTimes :=
  let t := if t.firstAfter < t.lastAfter then { t with firstAfter := t.lastAfter, lastAfter := 0 } else t
  if t.firstBefore > 0 ∧ (t.lastBefore = 0 ∨ t.lastBefore > t.firstBefore) then
    { t with lastBefore := t.firstBefore, firstBefore := 0 }
  else t

/-- `if (t != 0) dnstable_query_set_filter_parameter(…)`, `/repo/src/dnstable_lookup.c:561-579`. -/
def optTime (t : Nat) : Option Nat := if t ≠ 0 then some t else none

/-- The bounds handed to the library, `/repo/src/dnstable_lookup.c:544-580`. -/
def cliBounds (strict : Bool) (t : CliTimes) : Bounds :=
  let t := if strict then strictTimes t else t
  { firstAfter := optTime t.firstAfter, firstBefore := optTime t.firstBefore,
    lastAfter := optTime t.lastAfter, lastBefore := optTime t.lastBefore }

end Verif
