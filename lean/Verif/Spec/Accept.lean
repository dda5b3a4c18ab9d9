import Verif.Model.Query

/-!
# Specification: when an entry meets the criteria of a query

In terms of what the entry accessors show (dnstable_query_filter(3)).
-/

namespace Verif.Spec

/-- The record type an entry shows: RRsets (0) and records (2) have one. -/
def shownType (e : Entry) : Option Nat := if e.eType = 0 ∨ e.eType = 2 then some (e.rrtype % 65536) else none

/-- The first and last times an entry shows: RRsets, records and time ranges (254) have them. -/
def shownTimes (e : Entry) : Option (Nat × Nat) :=
  if e.eType = 0 ∨ e.eType = 2 ∨ e.eType = 254 then some (e.timeFirst, e.timeLast) else none

/-- The bailiwick an entry shows: only RRsets have one. -/
def shownBailiwick (e : Entry) : Option Bytes := if e.eType = 0 then some e.bailiwick else none

/-- The record types whose data holds a name that can be queried for: NS, CNAME, SOA, PTR, MX, RP,
NXT, SRV, DNAME, NSEC, SVCB, HTTPS. -/
def namedTypes : List Nat := [2, 5, 6, 12, 15, 17, 30, 33, 39, 47, 64, 65]

/-- The first and last times `t` are within every bound that is set. -/
structure WithinBounds (b : Bounds) (t : Nat × Nat) : Prop where
  firstBefore : ∀ x, b.firstBefore = some x → t.1 ≤ x
  firstAfter : ∀ x, b.firstAfter = some x → x ≤ t.1
  lastBefore : ∀ x, b.lastBefore = some x → t.2 ≤ x
  lastAfter : ∀ x, b.lastAfter = some x → x ≤ t.2

/-- The entry has everything the query asks for apart from its name or data. -/
structure Meets (q : Query) (e : Entry) : Prop where
  /-- the requested record type -/
  rrtype : q.doRrtype = true → shownType e = some q.rrtype
  /-- for names in data without a requested type, a type with names -/
  nameType : q.doRrtype = false → q.qType = .rdataName → ∃ t ∈ namedTypes, shownType e = some t
  /-- times within the bounds -/
  times : q.bounds.any = true → ∃ t, shownTimes e = some t ∧ WithinBounds q.bounds t
  /-- the requested bailiwick, which the query holds with its labels reversed -/
  bailiwick : q.qType = .rrset → ∀ b, q.bailiwick = some b →
    ∃ n, legalLabels n ∧ b = wire n.reverse ∧ shownBailiwick e = some (wire n)

end Verif.Spec
