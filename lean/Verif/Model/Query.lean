import Verif.Model.Mtbl
import Verif.Model.Entry
import Verif.Model.Merge

/-!
# Queries (`/repo/dnstable/query.c`)

The query object, the filter functions, the construction of the iterator and its `next` functions.
The `mtbl_varint_*` functions called there are those of the mtbl library; they are assumed to behave
like the copies in `/repo/libmy/varint.c`.
-/

namespace Verif
open Spec

/-- `dnstable_query_type`, `/repo/dnstable/dnstable.h:59-67`. -/
inductive QType where
  | rrset | rdataName | rdataIp | rdataRaw | timeRange | sourceInfo | version
deriving DecidableEq, Repr

/-- The time limits of a query, `/repo/dnstable/query.c:56,58`. -/
structure Limits where
  doTimeout : Bool := false
  timeout : Timespec := ⟨0, 0⟩
  doDeadline : Bool := false
  deadline : Timespec := ⟨0, 0⟩
deriving DecidableEq, Repr

/-- `q->do_timeout || q->do_deadline`, `/repo/dnstable/query.c:982,1713`. -/
def Limits.active (l : Limits) : Bool := l.doTimeout || l.doDeadline

/-- The four time bounds of a query, `/repo/dnstable/query.c:61-64`; `none` when the `do_` flag is
not set. -/
structure Bounds where
  firstBefore : Option Nat := none
  firstAfter : Option Nat := none
  lastBefore : Option Nat := none
  lastAfter : Option Nat := none
deriving DecidableEq, Repr

/-- Any bound set, `/repo/dnstable/query.c:1745-1746`. -/
def Bounds.any (b : Bounds) : Bool :=
  b.firstBefore.isSome || b.firstAfter.isSome || b.lastBefore.isSome || b.lastAfter.isSome

/-- `struct dnstable_query`, `/repo/dnstable/query.c:54-74`.  `bailiwick` is in label-reversed form;
`none` stands for a NULL data pointer.  `name` with a NULL data pointer has length 0.  `dq_wildplus`
is set anew whenever it is used and therefore not a field here; `err` is in `QueryMem`. -/
structure Query where
  qType : QType
  doRrtype : Bool := false
  rrtype : Nat := 0
  lim : Limits := {}
  aggregated : Bool := true
  caseSensitive : Bool := false
  bounds : Bounds := {}
  name : Bytes := []
  bailiwick : Option Bytes := none
  ip1 : Bytes := []
  ip2 : Bytes := []
  rdata : Option Bytes := none
  lenRdata : Nat := 0
  offset : Nat := 0
  hasVType : Bool := false
  vType : UInt8 := 0
deriving DecidableEq, Repr

/-! ## Filter functions -/

/-- Outcome of a filter function that sets `*match` and returns success
(`/repo/dnstable/query.c:733-953`). -/
def verdictOf : Out Bool → Verdict
  | .ok true => .pass
  | .ok false => .drop
  | .fail => .stop
  | .fault f => .fault f

/-- `add_rrtype_to_key`, `/repo/dnstable/query.c:614-620` (`WDNS_TYPE_ANY` is 255). -/
def addRrtype (key : Bytes) (rrtype : Nat) : Out Bytes :=
  if rrtype = 255 then .fault .abort else .ok (key ++ varintEncode32 rrtype)

/-- The seek at the end of `filter_single_label`, `/repo/dnstable/query.c:707-731`: the first
`nextLen` bytes of the key, incremented.  The result of `increment_key` is ignored there. -/
def singleLabelSeek (key : Bytes) (nextLen : Nat) : Verdict :=
  match incrementKey (key.take nextLen) (nextLen - 1) with
  | .ok (_, k) => .seekTo k
  | .fail => .stop
  | .fault f => .fault f

/-- `filter_single_label`, `/repo/dnstable/query.c:641-731`; `qks` is the size of the query key. -/
def filterSingleLabel (qks : Nat) (kv : KV) : Verdict :=
  let key := kv.1
  if qks ≥ key.length then .drop
  else
    match byteAt key qks with
    | .ok l =>
      if l = 0 then singleLabelSeek key (qks + 1)
      else
        let nextLen := qks + l.toNat + 1
        if nextLen ≥ key.length then .drop
        else
          match byteAt key nextLen with
          | .ok m => if m = 0 then .pass else singleLabelSeek key nextLen
          | .fail => .stop
          | .fault f => .fault f
    | .fail => .stop
    | .fault f => .fault f

/-- Position of the record type in an RRset key, `/repo/dnstable/query.c:751-755,832-835`: `none` if
the owner name is malformed or too little follows. -/
def rrtypePosRrset (key : Bytes) : Option Nat :=
  match parseLabels (key.drop 1) with
  | none => none
  | some (_, rest) =>
    let len := (key.drop 1).length - rest.length
    if len + 2 ≥ key.length then none else some (len + 1)

/-- Position of the record type in an rdata key, `/repo/dnstable/query.c:758-767,800-807`. -/
def rrtypePosRdata (key : Bytes) : Out (Option Nat) := do
  if key.length < 2 then .ok none
  else
    let lo ← byteAt key (key.length - 2)
    let hi ← byteAt key (key.length - 1)
    let rdlen := le16 lo hi
    if rdlen + 2 ≥ key.length then .ok none else .ok (some (rdlen + 1))

/-- `filter_rrtype`, `/repo/dnstable/query.c:733-779`: the value of `*match`. -/
def rrtypeMatch (want : Nat) (key : Bytes) : Out Bool := do
  let t ← byteAt key 0
  let pos ← if t.toNat = tRRSET then .ok (rrtypePosRrset key)
            else if t.toNat = tRDATA then rrtypePosRdata key
            else .fault .abort
  match pos with
  | none => .ok false
  | some p => do
    let (n, rrtype) ← varintDecode32 (key.drop p)
    if n = 0 then .ok false else .ok (rrtype == want)

/-- `filter_rrtype`, `/repo/dnstable/query.c:733-779`. -/
def filterRrtype (want : Nat) (kv : KV) : Verdict := verdictOf (rrtypeMatch want kv.1)

/-- `CASE_RDATA_NAME_TYPE_STANDALONE`, `/repo/dnstable/query.c:34-40`: MX, SRV, NS, CNAME, DNAME, PTR. -/
def standaloneTypes : List Nat := [15, 33, 2, 5, 39, 12]

/-- `CASE_RDATA_NAME_TYPE_ALL`, `/repo/dnstable/query.c:45-52`: the above and SOA, SVCB, HTTPS, NSEC,
RP, NXT. -/
def rdataNameTypes : List Nat := standaloneTypes ++ [6, 64, 65, 47, 17, 30]

/-- `filter_rrtype_rdata_name`, `/repo/dnstable/query.c:787-816`: the value of `*match`. -/
def rdataNameMatch (key : Bytes) : Out Bool := do
  match ← rrtypePosRdata key with
  | none => .ok false
  | some p => do
    let (_, rrtype) ← varintDecode32 (key.drop p)
    .ok (rdataNameTypes.contains rrtype)

/-- `filter_rrtype_rdata_name`, `/repo/dnstable/query.c:787-816`. -/
def filterRrtypeRdataName (kv : KV) : Verdict := verdictOf (rdataNameMatch kv.1)

/-- `filter_bailiwick`, `/repo/dnstable/query.c:818-850`: the value of `*match`; `bw` is the query's
bailiwick (label-reversed). -/
def bailiwickMatch (bw : Bytes) (key : Bytes) : Out Bool := do
  match rrtypePosRrset key with
  | none => .ok false
  | some p => do
    let (n, _) ← varintDecode32 (key.drop p)
    let p := p + n
    if p ≥ key.length then .ok false
    else
      match parseLabels (key.drop p) with
      | none => .ok false
      | some (_, rest) =>
        let lenName := (key.drop p).length - rest.length
        .ok ((key.drop p).take lenName == bw)

/-- `filter_bailiwick`, `/repo/dnstable/query.c:818-850`. -/
def filterBailiwick (bw : Bytes) (kv : KV) : Verdict := verdictOf (bailiwickMatch bw kv.1)

/-- `filter_time_common`, `/repo/dnstable/query.c:852-904`: the value of `*match`. -/
def timeMatch (b : Bounds) (prefilter : Bool) (val : Bytes) : Out Bool :=
  match tripletUnpack val with
  | .fault f => .fault f
  | .fail => .ok false
  | .ok (first, last, _) =>
    if b.firstAfter.any (fun x => first < x) then .ok false
    else if b.lastBefore.any (fun x => last > x) then .ok false
    else if b.lastAfter.any (fun x => last < x) then .ok false
    else if b.firstBefore.any (fun x => first > x) then .ok (prefilter && b.lastAfter.isSome)
    else .ok true

/-- `filter_time_prefilter` and `filter_time`, `/repo/dnstable/query.c:917-936`. -/
def filterTime (b : Bounds) (prefilter : Bool) (kv : KV) : Verdict := verdictOf (timeMatch b prefilter kv.2)

/-- `filter_offset`, `/repo/dnstable/query.c:938-953`: counts down the query's own offset. -/
def filterOffset : FilterFn := fun w _ =>
  if w.offset > 0 then (.drop, { w with offset := w.offset - 1 }) else (.pass, w)

/-! ## The address filter, `/repo/dnstable/query.c:1078-1311` -/

/-- Label `increment` of `filter_rrtype_ip`, `/repo/dnstable/query.c:1294-1301`, with
`key_prefix_len = pos + 1`. -/
def ipIncrement (seek : Bytes) (pos : Nat) : Verdict :=
  match incrementKey seek pos with
  | .ok (true, k) => if k.head? = some 2 then .seekTo k else .stop
  | .ok (false, _) => .fault .abort
  | .fail => .stop
  | .fault f => .fault f

/-- The rdata length of the record type, `/repo/dnstable/query.c:1245-1255`. -/
def ipRdlen (rrtype : Nat) : Out Bytes :=
  if rrtype = 1 then .ok [4, 0] else if rrtype = 28 then .ok [16, 0] else .fault .abort

/-- The label loop of `filter_rrtype_ip`, `/repo/dnstable/query.c:1214-1292`, with an iteration bound;
`seek` is the contents of `seek_key`. -/
def ipWalk (rrtype : Nat) (key : Bytes) : Nat → Bytes → Verdict
  | 0, _ => .fault .diverge
  | n + 1, seek =>
    match byteAt key seek.length with
    | .fault f => .fault f
    | .fail => .stop
    | .ok llen =>
      if llen.toNat > 63 then ipIncrement seek (seek.length - 1)
      else if llen.toNat = 0 then
        match ipRdlen rrtype with
        | .fault f => .fault f
        | .fail => .stop
        | .ok rdlen =>
          if bytesCompare (seek ++ [llen] ++ rdlen) key = .gt then .seekTo (seek ++ [llen] ++ rdlen)
          else ipIncrement (seek ++ [llen]) seek.length
      else if llen.toNat + 1 + seek.length > key.length then
        .seekTo (seek ++ key.drop seek.length
          ++ List.replicate (llen.toNat + 1 + seek.length - key.length) 0)
      else
        ipWalk rrtype key n (seek ++ [llen] ++ (key.drop (seek.length + 1)).take llen.toNat)

/-- The `do` block of `filter_rrtype_ip`, `/repo/dnstable/query.c:1092-1306`, for a key of another
record type; `qks` is the size of the query key. -/
def ipSkip (rrtype : Nat) (qks : Nat) (key : Bytes) : Verdict :=
  let pre := qks - varintLength rrtype
  if key.length < pre then
    match addRrtype (key ++ List.replicate (pre - key.length) 0) rrtype with
    | .ok k => .seekTo k
    | .fail => .stop
    | .fault f => .fault f
  else
    match addRrtype (key.take pre) rrtype with
    | .fail => .stop
    | .fault f => .fault f
    | .ok seek =>
      match bytesCompareN seek seek.length key seek.length with
      | .fail => .stop
      | .fault f => .fault f
      | .ok .lt => ipIncrement seek (pre - 1)
      | .ok .gt => .seekTo seek
      | .ok .eq =>
        if key.length ≤ seek.length then .drop
        else
          match byteAt key seek.length with
          | .fail => .stop
          | .fault f => .fault f
          | .ok b =>
            if b.toNat > 63 ∧ (rrtype = 1 ∨ rrtype = 28) then ipIncrement (seek.take pre) (pre - 1)
            else ipWalk rrtype key (key.length + 1) seek

/-- `filter_rrtype_ip`, `/repo/dnstable/query.c:1078-1311`. -/
def filterRrtypeIp (rrtype : Nat) (qks : Nat) (kv : KV) : Verdict :=
  match filterRrtype rrtype kv with
  | .drop => ipSkip rrtype qks kv.1
  | v => v

/-! ## Construction of the iterator -/

/-- What `dnstable_query_iter_common` starts from (`struct query_iter`, `/repo/dnstable/query.c:84-91`):
the two sources and, for time-filtered file sets, the removal sources and the fill merger. -/
structure Sources where
  source : Mach
  index : Mach
  rm : Option (List Src) := none
  fill : Option Src := none

/-- A filter to be installed: the stage it counts for and its function
(`FILTER_SET_COND`, `/repo/dnstable/query.c:1421-1432`). -/
abbrev Filt := Stage × (KV → Verdict)

/-- What the `query_init_*` functions (`/repo/dnstable/query.c:1438-1699`) decide: the filters put on
`it->source` and on `it->source_index` (in the order they are put on), the view to open, and for
indirect queries the type byte of the entries to look up (`it->m_iter2` is then opened on
`it->source_index` rather than `it->m_iter` on `it->source`). -/
structure Plan where
  onSource : List Filt := []
  onIndex : List Filt := []
  view : View
  indirect : Option UInt8 := none

/-- `FILTER_SET_COND`, `/repo/dnstable/query.c:1421-1427`. -/
def filtIf (c : Bool) (f : Filt) : List Filt := if c then [f] else []

/-- `FILTER_SET_COND(dq_wildplus, filter_single_label, ...)`, `/repo/dnstable/query.c:1446,1473,1558,1582`. -/
def singleLabelIf (plus : Bool) (key : Bytes) : List Filt :=
  filtIf plus (.filterSingleLabel, filterSingleLabel key.length)

/-- `FILTER_SET_COND(do_rrtype, filter_rrtype, source)`, `/repo/dnstable/query.c:1450,1474,1670`. -/
def rrtypeIf (q : Query) : List Filt := filtIf q.doRrtype (.filterRrtype, filterRrtype q.rrtype)

/-- `FILTER_SET_COND(bailiwick.data, filter_bailiwick, source)`, `/repo/dnstable/query.c:1451,1475,1543`. -/
def bailiwickIf (q : Query) : List Filt :=
  match q.bailiwick with
  | some bw => [(.filterBailiwick, filterBailiwick bw)]
  | none => []

/-- `is_right_wildcard`, `/repo/dnstable/query.c:1481-1493`: `some plus` if it is one. -/
def isRightWildcard (name : Bytes) : Option Bool :=
  if name.length ≥ 3 then
    match name[name.length - 3]?, name[name.length - 2]? with
    | some a, some b => if a = 1 ∧ (b = 42 ∨ b = 43) then some (b == 43) else none
    | _, _ => none
  else none

/-- `is_left_wildcard`, `/repo/dnstable/query.c:1496-1508`. -/
def isLeftWildcard (name : Bytes) : Option Bool :=
  if name.length ≥ 3 then
    match name[0]?, name[1]? with
    | some a, some b => if a = 1 ∧ (b = 42 ∨ b = 43) then some (b == 43) else none
    | _, _ => none
  else none

/-- The label-reversed name after the leading wildcard label, without its root label,
`/repo/dnstable/query.c:1460-1471,1570-1579`: the local buffer has `WDNS_MAXLEN_NAME` bytes. -/
def leftWildcardKey (t : UInt8) (name : Bytes) : Out Bytes := do
  let len := name.length - 2
  let rev ← reverseName (name.drop 2)
  if len > maxLenName then .fault .oobWrite else .ok (t :: rev.take (len - 1))

/-- `query_init_rrset_right_wildcard`, `/repo/dnstable/query.c:1438-1456`. -/
def initRrsetRight (q : Query) (plus : Bool) : Out Plan :=
  let key : Bytes := 1 :: q.name.take (q.name.length - 3)
  .ok
    { onIndex := singleLabelIf plus key
      onSource := rrtypeIf q ++ bailiwickIf q
      view := .pfx key
      indirect := some 0 }

/-- `query_init_rrset_left_wildcard`, `/repo/dnstable/query.c:1458-1478`. -/
def initRrsetLeft (q : Query) (plus : Bool) : Out Plan := do
  let key ← leftWildcardKey 0 q.name
  .ok { onSource := singleLabelIf plus key ++ rrtypeIf q ++ bailiwickIf q, view := .pfx key }

/-- The remainder of `query_init_rrset`, `/repo/dnstable/query.c:1521-1546`. -/
def initRrsetExact (q : Query) : Out Plan := do
  let rev ← reverseName q.name
  if q.name.length > maxLenName then .fault .oobWrite
  else if q.doRrtype then do
    let key ← addRrtype (0 :: rev) q.rrtype
    .ok { view := .pfx (key ++ q.bailiwick.getD []) }
  else .ok { onSource := bailiwickIf q, view := .pfx (0 :: rev) }

/-- `query_init_rrset`, `/repo/dnstable/query.c:1510-1547`: the left wildcard is looked for first. -/
def initRrset (q : Query) : Out Plan :=
  match isLeftWildcard q.name with
  | some plus => initRrsetLeft q plus
  | none =>
    match isRightWildcard q.name with
    | some plus => initRrsetRight q plus
    | none => initRrsetExact q

/-- The type filter of `query_init_rdata_name`, `/repo/dnstable/query.c:1593-1598`. -/
def rdataNameFilter (q : Query) : Filt :=
  if q.doRrtype then (.filterRrtype, filterRrtype q.rrtype) else (.filterRrtype, filterRrtypeRdataName)

/-- `query_init_rdata_right_wildcard`, `/repo/dnstable/query.c:1549-1561`. -/
def initRdataRight (q : Query) (plus : Bool) : Out Plan :=
  let key : Bytes := 2 :: q.name.take (q.name.length - 3)
  .ok { onSource := rdataNameFilter q :: singleLabelIf plus key, view := .pfx key }

/-- `query_init_rdata_left_wildcard`, `/repo/dnstable/query.c:1568-1587`. -/
def initRdataLeft (q : Query) (plus : Bool) : Out Plan := do
  let key ← leftWildcardKey 3 q.name
  .ok
    { onIndex := singleLabelIf plus key
      onSource := [rdataNameFilter q]
      view := .pfx key
      indirect := some 2 }

/-- The remainder of `query_init_rdata_name`, `/repo/dnstable/query.c:1606-1620`. -/
def initRdataExact (q : Query) : Out Plan := do
  let key ← if q.doRrtype ∧ standaloneTypes.contains q.rrtype then addRrtype (2 :: q.name) q.rrtype
            else .ok (2 :: q.name)
  .ok { onSource := [rdataNameFilter q], view := .pfx key }

/-- `query_init_rdata_name`, `/repo/dnstable/query.c:1589-1621`: the right wildcard is looked for
first. -/
def initRdataName (q : Query) : Out Plan :=
  match isRightWildcard q.name with
  | some plus => initRdataRight q plus
  | none =>
    match isLeftWildcard q.name with
    | some plus => initRdataLeft q plus
    | none => initRdataExact q

/-- `query_init_rdata_ip`, `/repo/dnstable/query.c:1623-1652`.  The result of `increment_key` is
ignored there. -/
def initRdataIp (q : Query) : Out Plan := do
  Out.assert q.doRrtype
  Out.assert (q.ip1.length > 0)
  let key ← addRrtype (2 :: q.ip1) q.rrtype
  let filters : List Filt := [(.filterRrtype, filterRrtypeIp q.rrtype key.length)]
  if q.ip2.length > 0 then do
    let key2 ← addRrtype (2 :: q.ip2) q.rrtype
    let (_, key2) ← incrementKey key2 (key2.length - 1)
    .ok { onSource := filters, view := .range key key2 }
  else .ok { onSource := filters, view := .pfx key }

/-- The bytes of `q->rdata` (`/repo/dnstable/query.c:1663`): a NULL pointer with a length is
dereferenced. -/
def rdataBytes (q : Query) : Out Bytes :=
  match q.rdata with
  | some d => if q.lenRdata ≤ d.length then .ok (d.take q.lenRdata) else .fault .oobRead
  | none => if q.lenRdata = 0 then .ok [] else .fault .nullDeref

/-- `query_init_rdata_raw`, `/repo/dnstable/query.c:1654-1673`. -/
def initRdataRaw (q : Query) : Out Plan := do
  let d ← rdataBytes q
  .ok { onSource := rrtypeIf q, view := .pfx (2 :: d) }

/-- The dispatch on the query type, `/repo/dnstable/query.c:1720-1736`; `query_init_time_range`
1675-1681, `query_init_source_info` 1683-1689, `query_init_version` 1691-1699. -/
def initKind (q : Query) : Out Plan :=
  match q.qType with
  | .rrset => initRrset q
  | .rdataName => initRdataName q
  | .rdataIp => initRdataIp q
  | .rdataRaw => initRdataRaw q
  | .timeRange => .ok { view := .pfx [254] }
  | .sourceInfo => .ok { view := .pfx [253] }
  | .version => .ok { view := .pfx (255 :: if q.hasVType then [q.vType] else []) }

/-- Put filters on a source, the first one innermost (`FILTER_SET`, `/repo/dnstable/query.c:1428-1432`). -/
def withFilters : List Filt → Mach → Mach
  | [], M => M
  | f :: fs, M => withFilters fs (filterM f.1 (pureF f.2) M)

/-- Timeouts in front of everything else, `/repo/dnstable/query.c:1713-1718`. -/
def withTimeout (q : Query) (M : Mach) : Mach := if q.lim.active then timeoutM M else M

/-- The removal stage, `/repo/dnstable/query.c:1758-1761`. -/
def withRemove (rm : Option (List Src)) (M : Mach) : Mach :=
  match rm with
  | some l => removeM l M
  | none => M

/-- The left join with the fill merger, `/repo/dnstable/query.c:1785-1790`. -/
def withFill (fill : Option Src) (M : Mach) : Mach :=
  match fill with
  | some f => ljoinM mergeFunc M f.mach
  | none => M

/-- The time stages, `/repo/dnstable/query.c:1744-1795`. -/
def withTimes (q : Query) (rm : Option (List Src)) (fill : Option Src) (M : Mach) : Mach :=
  if q.bounds.any then
    filterM .filterTime (pureF (filterTime q.bounds false))
      (withFill fill (withRemove rm
        (filterM .filterTimePrefilter (pureF (filterTime q.bounds true)) M)))
  else withFill fill M

/-- The offset stage, `/repo/dnstable/query.c:1798-1800`. -/
def withOffset (q : Query) (M : Mach) : Mach :=
  if q.offset > 0 then filterM .filterOffset filterOffset M else M

/-- A query iterator: `it->source`, `it->source_index` with everything put on them, and how it is
opened (`struct query_iter`, `/repo/dnstable/query.c:76-121`). -/
structure Built where
  source : Mach
  index : Mach
  view : View
  indirect : Option UInt8

/-- `dnstable_query_iter_common`, `/repo/dnstable/query.c:1701-1815`, given the decisions of the
`query_init_*` function, which is called between the timeout and the time stages. -/
def assemble (q : Query) (S : Sources) (p : Plan) : Built :=
  { source := withOffset q (withTimes q S.rm S.fill (withFilters p.onSource (withTimeout q S.source)))
    index := withFilters p.onIndex (withTimeout q S.index)
    view := p.view
    indirect := p.indirect }

/-- The sources of `dnstable_query_iter`, `/repo/dnstable/query.c:1817-1826`. -/
def plainSources (M : Mach) : Sources := { source := M, index := M }

/-! ## Iteration -/

/-- Result of `dnstable_iter_next` (`enum dnstable_res`, `/repo/dnstable/dnstable.h:35-40`): an entry,
failure, timeout, or a fault. -/
inductive QRes where
  | entry (e : Entry)
  | failure
  | timeout
  | fault (f : Fault)
deriving DecidableEq, Repr

/-- `query_iter_set_deadline`, `/repo/dnstable/query.c:959-974`. -/
def setDeadline (l : Limits) (w : World) : World :=
  if l.doTimeout then
    let d := timespecAdd l.timeout (w.clock w.tick)
    { w with
      tick := w.tick + 1
      deadline := if l.doDeadline && !timespecGe l.deadline d then l.deadline else d }
  else { w with deadline := l.deadline }

/-- The beginning of both `next` functions, `/repo/dnstable/query.c:982-986,1334-1338`. -/
def armTimer (l : Limits) (w : World) : World :=
  if l.active then { setDeadline l w with armed := true } else w

/-- Returning from a `next` function ends the life of its `setjmp` environment
(`/repo/dnstable/query.c:984,1336`). -/
def disarm (w : World) : World := { w with armed := false }

/-- The loop of `query_iter_next`, `/repo/dnstable/query.c:988-1000`, with an iteration bound. -/
def directLoop (M : Mach) : Nat → M.St → World → QRes × M.St × World
  | 0, s, w => (.fault .diverge, s, w)
  | n + 1, s, w =>
    match M.next s w with
    | (.item kv, s, w) =>
      match entryDecode kv.1 kv.2 with
      | .ok e => (.entry e, s, w)
      | .fail => directLoop M n s w
      | .fault f => (.fault f, s, w)
    | (.done, s, w) => (.failure, s, w)
    | (.timeout, s, w) => (.timeout, s, w)
    | (.fault f, s, w) => (.fault f, s, w)

/-- The record type added to the lookup key of an indirect query, `/repo/dnstable/query.c:1374-1383`. -/
def indirectType (q : Query) (tb : UInt8) (key : Bytes) : Out Bytes :=
  if q.doRrtype ∧ tb = 0 then addRrtype key (q.rrtype % 65536)
  else if q.doRrtype ∧ standaloneTypes.contains (q.rrtype % 65536) then addRrtype key (q.rrtype % 65536)
  else .ok key

/-- From an index entry to the lookup key, `/repo/dnstable/query.c:1354-1383`: `none` if the index
says that the type does not occur, failure if the name is malformed. -/
def indirectKey (q : Query) (tb : UInt8) (kv : KV) : Out (Option Bytes) := do
  let skip ← if q.doRrtype then do
      let b ← rrtypeTest tb.toNat (q.rrtype % 65536) kv.2
      .ok (!b)
    else .ok false
  if skip then .ok none
  else do
    let rev ← reverseName (kv.1.drop 1)
    let k ← indirectType q tb (tb :: rev)
    .ok (some k)

/-- The loop of `query_iter_next_name_indirect`, `/repo/dnstable/query.c:1340-1405`, with an
iteration bound: first the entries of the open lookup (`it->m_iter`), then the next index entry.
Simplification: an iterator that `mtbl_source_get_prefix` reports as NULL is an empty one. -/
def indirectLoop (q : Query) (tb : UInt8) (I M : Mach) :
    Nat → I.St → Option M.St → World → QRes × (I.St × Option M.St) × World
  | 0, i, m, w => (.fault .diverge, (i, m), w)
  | n + 1, i, some s, w =>
    match directLoop M (M.size s + 1) s w with
    | (.failure, _, w) => indirectLoop q tb I M n i none w
    | (r, s, w) => (r, (i, some s), w)
  | n + 1, i, none, w =>
    match I.next i w with
    | (.item kv, i, w) =>
      match indirectKey q tb kv with
      | .ok none => indirectLoop q tb I M n i none w
      | .ok (some k) => indirectLoop q tb I M n i (some (M.start (.pfx k))) w
      | .fail => (.failure, (i, none), w)
      | .fault f => (.fault f, (i, none), w)
    | (.done, i, w) => (.failure, (i, none), w)
    | (.timeout, i, w) => (.timeout, (i, none), w)
    | (.fault f, i, w) => (.fault f, (i, none), w)

/-- State of a query iterator: `it->m_iter` of a direct query, `it->m_iter2` and `it->m_iter` of an
indirect one (`/repo/dnstable/query.c:99`). -/
inductive QSt (B : Built) where
  | direct (s : B.source.St)
  | indirect (tb : UInt8) (i : B.index.St) (m : Option B.source.St)

/-- Opening the iterator, `/repo/dnstable/query.c:1447,1583,1802-1811`. -/
def Built.start (B : Built) : QSt B :=
  match B.indirect with
  | none => .direct (B.source.start B.view)
  | some tb => .indirect tb (B.index.start B.view) none

/-- `query_iter_next`, `/repo/dnstable/query.c:976-1003`, and `query_iter_next_name_indirect`,
`/repo/dnstable/query.c:1326-1407`.  `q` is the query object as it is at the time of the call. -/
def queryNext (q : Query) (B : Built) (s : QSt B) (w : World) : QRes × QSt B × World :=
  let w := armTimer q.lim w
  match s with
  | .direct s =>
    let (r, s, w) := directLoop B.source (B.source.size s + 1) s w
    (r, .direct s, disarm w)
  | .indirect tb i m =>
    let (r, (i, m), w) := indirectLoop q tb B.index B.source (2 * B.index.size i + 3) i m w
    (r, .indirect tb i m, disarm w)

end Verif
