import Verif.Model.Live
import Verif.Spec.Accept
import Verif.Spec.Store

/-!
# Specification: what an open iterator obeys when its query changes
-/

namespace Verif.Spec

/-- A wildcard label `*` or `+` at the beginning or at the end of a name in wire form. -/
def WildName (name : Bytes) : Prop :=
  ∃ c : UInt8, (c = 42 ∨ c = 43) ∧ ((∃ z rest, name = 1 :: c :: z :: rest) ∨ ∃ pre z, name = pre ++ [1, c, z])

/-- The query asks for the RRsets of one name and of one type: type and bailiwick are part of the key that is looked up. -/
def Pinned (q : Query) : Prop := q.qType = .rrset ∧ q.doRrtype = true ∧ ¬ WildName q.name

/-- The entry has what an iterator asks for that was opened for the query `q0` and whose query is now `q`: each criterion of `q0`
applies with the value it has now, except that a pinned query keeps its type and bailiwick.  Criteria that `q0` did not
have do not apply. -/
structure Obeys (q0 q : Query) (e : Entry) : Prop where
  pinnedType : Pinned q0 → shownType e = some q0.rrtype
  pinnedBailiwick : Pinned q0 → ∀ b, q0.bailiwick = some b →
    ∃ n, legalLabels n ∧ b = wire n.reverse ∧ shownBailiwick e = some (wire n)
  /-- the record type -/
  rrtype : ¬ Pinned q0 → q0.doRrtype = true → shownType e = some q.rrtype
  /-- for names in data without a requested type, a type with names -/
  named : q0.doRrtype = false → q0.qType = .rdataName → ∃ t ∈ namedTypes, shownType e = some t
  /-- the bailiwick, which must still be set -/
  bailiwick : ¬ Pinned q0 → q0.qType = .rrset → q0.bailiwick ≠ none →
    ∃ n, legalLabels n ∧ q.bailiwick = some (wire n.reverse) ∧ shownBailiwick e = some (wire n)
  times : q0.bounds.any = true → ∃ t, shownTimes e = some t ∧ WithinBounds q.bounds t

/-- A setter that leaves alone what an open iterator of a query of this kind reads for each row. -/
def Harmless (k : QType) : Setter → Prop
  | .caseSensitive _ | .aggregated _ | .timeout _ | .deadline _ => True
  | .data _ => k ≠ .rdataIp
  | .bailiwick _ | .rrtype _ | .offset _ | .filterParam _ _ _ => False

/-- The time limits in force at each of the calls of `dnstable_iter_next`. -/
def limitsAt : Limits → List LiveOp → List Limits
  | _, [] => []
  | l, .next :: os => l :: limitsAt l os
  | l, .set (.timeout (some t)) :: os => limitsAt { l with doTimeout := true, timeout := t } os
  | l, .set (.timeout none) :: os => limitsAt { l with doTimeout := false } os
  | l, .set (.deadline (some t)) :: os => limitsAt { l with doDeadline := true, deadline := t } os
  | l, .set (.deadline none) :: os => limitsAt { l with doDeadline := false } os
  | l, .set _ :: os => limitsAt l os

/-- `LiveReturns t show want L cs`: of the list `L`, each of the calls `cs` passes over the elements that are not wanted with the
query as it is at that call, and returns the first that is, or reports failure if there is none.  With `t`, a call may report a
timeout instead; what it has passed over by then was not wanted. -/
inductive LiveReturns {α : Type} (t : Bool) (shown : α → Option Entry) (want : Query → α → Bool) : List α → List LiveCall → Prop where
  | nil {L} : LiveReturns t shown want L []
  | entry {D x L e c cs} : (∀ y ∈ D, want c.query y = false) → want c.query x = true → shown x = some e → c.res = .entry e →
      LiveReturns t shown want L cs → LiveReturns t shown want (D ++ x :: L) (c :: cs)
  | failure {D L c cs} : (∀ y ∈ D ++ L, want c.query y = false) → c.res = .failure →
      LiveReturns t shown want L cs → LiveReturns t shown want (D ++ L) (c :: cs)
  | timeout {D L c cs} : t = true → (∀ y ∈ D, want c.query y = false) → c.res = .timeout →
      LiveReturns t shown want L cs → LiveReturns t shown want (D ++ L) (c :: cs)

/-- RRsets wanted by owner and times, of an iterator opened with the criteria `a` whose query is now `q`; `fixed` says whether type and
bailiwick are those of `a` or those of `q`. -/
def liveRrset (owner : Name → Bool) (fixed : Bool) (a : Ask) (q : Query) : Rec → Bool
  | .rrset r o => owner r.owner &&
      (if fixed then a.ty.all (· == r.rrtype) && a.bw.all (· == r.bailiwick)
       else (a.ty.isNone || q.rrtype == r.rrtype) && (a.bw.isNone || q.bailiwick == some (wire r.bailiwick.reverse))) &&
      (!a.times.any || inBounds q.bounds o)
  | _ => false

/-- What a stored record looks like from its data on: the data without the part kept at the end, the type, the owner, that part and
the length of the data. -/
def dataText (r : RR) : Bytes := r.tail ++ leb r.rrtype ++ wire r.owner.reverse ++ r.lead ++ word16 r.tail.length

/-- Records wanted by their data, type and times, of an iterator opened with the criteria `a` whose query is now `q`. -/
def liveRr (want : RR → Bool) (a : Ask) (q : Query) : Rec → Bool
  | .rr r o => want r && (a.ty.isNone || q.rrtype == r.rrtype) && (!a.times.any || inBounds q.bounds o)
  | _ => false

end Verif.Spec
