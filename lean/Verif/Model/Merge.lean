import Verif.Model.Triplet
import Verif.Model.Union

/-!
# The merge function (`/repo/dnstable/merge.c:182-272`)
-/

namespace Verif

/-- Type bytes of keys, `/repo/dnstable/dnstable-private.h:58-65`. -/
def etRrset : UInt8 := 0
/-- `/repo/dnstable/dnstable-private.h:59` -/
def etRrsetNameFwd : UInt8 := 1
/-- `/repo/dnstable/dnstable-private.h:60` -/
def etRdata : UInt8 := 2
/-- `/repo/dnstable/dnstable-private.h:61` -/
def etRdataNameRev : UInt8 := 3
/-- `/repo/dnstable/dnstable-private.h:63` -/
def etSourceInfo : UInt8 := 253
/-- `/repo/dnstable/dnstable-private.h:64` -/
def etTimeRange : UInt8 := 254
/-- `/repo/dnstable/dnstable-private.h:65` -/
def etVersion : UInt8 := 255

/-- `assert(res == dnstable_res_success)` after an unpack, `/repo/dnstable/merge.c:199,222`:
an ordinary failure becomes an abort. -/
def Out.orAbort {α : Type} : Out α → Out α
  | .fail => .fault .abort
  | o => o

/-- RRSET/RDATA branch, `/repo/dnstable/merge.c:192-208`. -/
def mergeTriplets (v0 v1 : Bytes) : Out Bytes := do
  Out.assert (v0.length ≠ 0 ∧ v1.length ≠ 0)
  let (tf0, tl0, c0) ← (tripletUnpack v0).orAbort
  let (tf1, tl1, c1) ← (tripletUnpack v1).orAbort
  let tf := if tf0 < tf1 then tf0 else tf1
  let tl := if tl0 > tl1 then tl0 else tl1
  .ok (tripletPack tf tl ((c0 + c1) % 2 ^ 64))

/-- TIME_RANGE branch, `/repo/dnstable/merge.c:212-228`. -/
def mergeTimeRange (v0 v1 : Bytes) : Out Bytes :=
  if v0.length = 0 ∨ v1.length = 0 then .ok []
  else do
    let (tf0, tl0) ← (pairUnpack v0).orAbort
    let (tf1, tl1) ← (pairUnpack v1).orAbort
    let tf := if tf0 < tf1 then tf0 else tf1
    let tl := if tl0 > tl1 then tl0 else tl1
    .ok (pairPack tf tl)

/-- VERSION branch, `/repo/dnstable/merge.c:229-267`; `vt` is `key[1]`. -/
def mergeVersion (vt : UInt8) (v0 v1 : Bytes) : Out Bytes :=
  if v0.length = 0 ∨ v1.length = 0 then .ok []
  else if vt = etRrset ∨ vt = etRrsetNameFwd ∨ vt = etRdata ∨ vt = etRdataNameRev then do
    let (n0, x0) ← varintDecode32 v0
    Out.assert (n0 = v0.length)
    let (n1, x1) ← varintDecode32 v1
    Out.assert (n1 = v1.length)
    .ok (varintEncode32 (if x0 < x1 then x0 else x1))
  else .ok []

/-- `dnstable_merge_func`, `/repo/dnstable/merge.c:182-272`; `fail` is a NULL merged value. -/
def mergeFunc (key v0 v1 : Bytes) : Out Bytes :=
  match key with
  | [] => .ok []
  | t :: ks =>
    if t = etRrset ∨ t = etRdata then mergeTriplets v0 v1
    else if t = etRrsetNameFwd ∨ t = etRdataNameRev then mergeBitmaps v0 v1
    else if ks = [] ∧ t = etTimeRange then mergeTimeRange v0 v1
    else match ks with
      | [vt] => if t = etVersion then mergeVersion vt v0 v1 else .ok []
      | _ => .ok []

end Verif
