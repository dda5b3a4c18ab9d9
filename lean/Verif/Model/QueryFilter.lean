import Verif.Model.Query

/-!
# Applying a query's criteria to an entry (`/repo/dnstable/query.c`)
-/

namespace Verif

/-- The record type criterion of `dnstable_query_filter`, `/repo/dnstable/query.c:525-542`. -/
def filterEntryType (q : Query) (e : Entry) : Out Bool :=
  if q.doRrtype then do
    let t ← e.getRrtype
    .ok (t == q.rrtype)
  else if q.qType = .rdataName then do
    let t ← e.getRrtype
    .ok (rdataNameTypes.contains t)
  else .ok true

/-- A pair of bounds on a time that is fetched only if one of them is set,
`/repo/dnstable/query.c:544-566`. -/
def filterEntryTime (before after : Option Nat) (get : Out Nat) : Out Bool :=
  if before.isSome || after.isSome then do
    let t ← get
    if before.any (fun x => x < t) then .ok false
    else if after.any (fun x => x > t) then .ok false
    else .ok true
  else .ok true

/-- The bailiwick criterion of `dnstable_query_filter`, `/repo/dnstable/query.c:568-581`; `rev` has
`WDNS_MAXLEN_NAME` bytes. -/
def filterEntryBailiwick (q : Query) (e : Entry) : Out Bool :=
  match q.qType, q.bailiwick with
  | .rrset, some bw => do
    let b ← e.getBailiwick
    if bw.length ≠ b.length then .ok false
    else
      match reverseName b with
      | .fail => .ok false
      | .fault f => .fault f
      | .ok rev => if b.length > maxLenName then .fault .oobWrite else .ok (bw == rev)
  | _, _ => .ok true

/-- `dnstable_query_filter`, `/repo/dnstable/query.c:520-588`: the value of `*pass`. -/
def queryFilter (q : Query) (e : Entry) : Out Bool := do
  let a ← filterEntryType q e
  if !a then .ok false
  else do
    let b ← filterEntryTime q.bounds.firstBefore q.bounds.firstAfter e.getTimeFirst
    if !b then .ok false
    else do
      let c ← filterEntryTime q.bounds.lastBefore q.bounds.lastAfter e.getTimeLast
      if !c then .ok false
      else filterEntryBailiwick q e

end Verif
