import Verif.Model.Setters

/-!
# Specification: query parameters

The parameters of a query as the manual presents them (`/repo/man/dnstable_query.3.txt:111-175`), and what of a
query belongs to each of them.
-/

namespace Verif.Spec

/-- The parameters. -/
inductive Param where
  | caseSensitive | bailiwick | data | rrtype | offset | aggregated | timeout | deadline
  | firstBefore | firstAfter | lastBefore | lastAfter
deriving DecidableEq, Repr

/-- The parameter a setter call is about (`none` for an unknown filter parameter). -/
def paramOf : Setter → Option Param
  | .caseSensitive _ => some .caseSensitive
  | .bailiwick _ => some .bailiwick
  | .data _ => some .data
  | .rrtype _ => some .rrtype
  | .offset _ => some .offset
  | .aggregated _ => some .aggregated
  | .timeout _ => some .timeout
  | .deadline _ => some .deadline
  | .filterParam 0 _ _ => some .firstBefore
  | .filterParam 1 _ _ => some .firstAfter
  | .filterParam 2 _ _ => some .lastBefore
  | .filterParam 3 _ _ => some .lastAfter
  | .filterParam _ _ _ => none

/-- The part of a query that belongs to a parameter, everything else being as in a new query.  A value
whose flag is off does not count. -/
def view (p : Param) (q : Query) : Query :=
  match p with
  | .caseSensitive => { qType := q.qType, caseSensitive := q.caseSensitive }
  | .bailiwick => { qType := q.qType, bailiwick := q.bailiwick }
  | .data =>
    { qType := q.qType, name := q.name, ip1 := q.ip1, ip2 := q.ip2, rdata := q.rdata, lenRdata := q.lenRdata,
      hasVType := q.hasVType, vType := if q.hasVType then q.vType else 0 }
  | .rrtype => { qType := q.qType, doRrtype := q.doRrtype, rrtype := if q.doRrtype then q.rrtype else 0 }
  | .offset => { qType := q.qType, offset := q.offset }
  | .aggregated => { qType := q.qType, aggregated := q.aggregated }
  | .timeout =>
    { qType := q.qType
      lim := { doTimeout := q.lim.doTimeout, timeout := if q.lim.doTimeout then q.lim.timeout else ⟨0, 0⟩ } }
  | .deadline =>
    { qType := q.qType
      lim := { doDeadline := q.lim.doDeadline, deadline := if q.lim.doDeadline then q.lim.deadline else ⟨0, 0⟩ } }
  | .firstBefore => { qType := q.qType, bounds := { firstBefore := q.bounds.firstBefore } }
  | .firstAfter => { qType := q.qType, bounds := { firstAfter := q.bounds.firstAfter } }
  | .lastBefore => { qType := q.qType, bounds := { lastBefore := q.bounds.lastBefore } }
  | .lastAfter => { qType := q.qType, bounds := { lastAfter := q.bounds.lastAfter } }

/-- Whether a setter call bears on a parameter: calls about it, and for the search data also the case
sensitivity chosen earlier (`/repo/man/dnstable_query.3.txt:134-141`). -/
def bearsOn (p : Param) (s : Setter) : Bool :=
  paramOf s == some p || (p == .data && paramOf s == some .caseSensitive)

/-- Parameters whose old value survives a failed call. -/
def steady (p : Param) : Bool := p != .data && p != .bailiwick

/-- A setter call that unsets its parameter. -/
def clears : Setter → Bool
  | .bailiwick none => true
  | .data none => true
  | .rrtype none => true
  | .timeout none => true
  | .deadline none => true
  | .filterParam _ none _ => true
  | _ => false

end Verif.Spec
