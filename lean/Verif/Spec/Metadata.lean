import Verif.Spec.Unaggregated

/-! # Specification: queries for time ranges and versions -/

namespace Verif.Spec

/-- Time ranges. -/
def isTimeRange : Rec → Bool
  | .timeRange _ _ => true
  | _ => false

/-- Versions; if a kind of entries is given, only of those. -/
def isVersion (kind : Option UInt8) : Rec → Bool
  | .version t _ => kind.all (· == t)
  | _ => false

/-- `a` is the earliest start and `b` the latest end of the time ranges among the records, of which there is at least
one. -/
def Spans (Rs : List Rec) (a b : Nat) : Prop :=
  (∃ b', Rec.timeRange a b' ∈ Rs) ∧ (∃ a', Rec.timeRange a' b ∈ Rs) ∧ ∀ a' b', Rec.timeRange a' b' ∈ Rs → a ≤ a' ∧ b' ≤ b

/-- `v` is the least version for the kind `t` among the records. -/
def LeastVersion (Rs : List Rec) (t : UInt8) (v : Nat) : Prop :=
  Rec.version t v ∈ Rs ∧ ∀ v', Rec.version t v' ∈ Rs → v ≤ v'

/-- A query for the time range, without bounds on times. -/
def AsksTimeRange (q : Query) : Prop := q.qType = .timeRange ∧ q.bounds = {}

/-- A query for versions, without bounds on times. -/
def AsksVersion (kind : Option UInt8) (q : Query) : Prop :=
  q.qType = .version ∧ q.bounds = {} ∧ q.hasVType = kind.isSome ∧ ∀ t, kind = some t → q.vType = t

end Verif.Spec
