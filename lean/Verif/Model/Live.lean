import Verif.Model.Query
import Verif.Model.Setters

/-!
# Changing a query while one of its iterators is open (`/repo/dnstable/query.c`)

An iterator keeps a pointer to its query (`it->query`, `/repo/dnstable/query.c:77,1822,2009`).  The filters to install, the key and
the view are decided when it is opened; the filter functions read the record type, the bailiwick, the time bounds and the
offset through the pointer for every row.  `Verif.Model.Query` takes these (apart from the offset) as they were when the iterator was
opened; here they are those of the query at the time of each call.  A sequence of setter calls and of calls of
`dnstable_iter_next` is `liveRun`.
-/

namespace Verif

/-- A source whose iterators read the query (`struct mtbl_source`, `/repo/dnstable/query_mtbl.c:83-121`, with filters that are
given the `struct query_iter`, `/repo/dnstable/query.c:1424`).  Seeks call no filter. -/
structure QMach where
  St : Type
  start : View → St
  next : Query → St → World → Res × St × World
  seek : St → Bytes → World → Bool × St × World
  size : St → Nat

/-- The source while the query is as given (`it->query`, `/repo/dnstable/query.c:77`). -/
def QMach.at (M : QMach) (q : Query) : Mach := ⟨M.St, M.start, M.next q, M.seek, M.size⟩

/-- A source that does not know of the query (`mtbl_merger_source`, `/repo/dnstable/query.c:1824,2036`). -/
def constQ (M : Mach) : QMach := ⟨M.St, M.start, fun _ => M.next, M.seek, M.size⟩

/-- `timeout_mtbl`, `/repo/dnstable/query_mtbl.c:485-566`. -/
def timeoutQ (M : QMach) : QMach := { M with next := fun q => (timeoutM (M.at q)).next }

/-- `filter_mtbl`, `/repo/dnstable/query_mtbl.c:331-475`, with a filter function that reads the query. -/
def filterQ (g : Stage) (f : Query → FilterFn) (M : QMach) : QMach :=
  { M with next := fun q => (filterM g (f q) (M.at q)).next }

/-- `remove_mtbl`, `/repo/dnstable/query_mtbl.c:576-836`.  `q0` only serves to name the type of the states. -/
def removeQ (q0 : Query) (rms : List Src) (M : QMach) : QMach where
  St := RemoveSt (M.at q0)
  start V := (removeM rms (M.at q0)).start V
  next q s w :=
    let r := (removeM rms (M.at q)).next ⟨s.up, s.entries, s.view⟩ w
    (r.1, ⟨r.2.1.up, r.2.1.entries, r.2.1.view⟩, r.2.2)
  seek := (removeM rms (M.at q0)).seek
  size := (removeM rms (M.at q0)).size

/-- `ljoin_mtbl`, `/repo/dnstable/query_mtbl.c:130-321`, with a right side that does not know of the query.  `q0` only serves to
name the type of the states. -/
def ljoinQ (q0 : Query) (merge : MergeFn) (M : QMach) (R : Mach) : QMach where
  St := LjoinSt (M.at q0) R
  start V := (ljoinM merge (M.at q0) R).start V
  next q s w :=
    let r := (ljoinM merge (M.at q) R).next ⟨s.left, s.right, s.finished, s.rkv⟩ w
    (r.1, ⟨r.2.1.left, r.2.1.right, r.2.1.finished, r.2.1.rkv⟩, r.2.2)
  seek := (ljoinM merge (M.at q0) R).seek
  size := (ljoinM merge (M.at q0) R).size

/-- A filter as installed for the query `q0`, now reading the query `q`: `filter_rrtype_ip`
(`/repo/dnstable/query.c:1078-1311,1649`; `keyLen` is the length of `it->key`) for addresses, `filter_rrtype_rdata_name` (787-816,
which reads no query) for names in data without a type, and otherwise `filter_rrtype` (775); `filter_bailiwick` (825-847; a
bailiwick that has been unset has length 0).  `filter_single_label` (641-731) reads the key only. -/
def liveFilter (q0 : Query) (keyLen : Nat) (f : Filt) (q : Query) : KV → Verdict :=
  match f.1 with
  | .filterRrtype =>
    if q0.qType = .rdataIp then filterRrtypeIp q.rrtype keyLen
    else if q0.qType = .rdataName ∧ q0.doRrtype = false then filterRrtypeRdataName
    else filterRrtype q.rrtype
  | .filterBailiwick => filterBailiwick (q.bailiwick.getD [])
  | _ => f.2

/-- Filters put on a source, the first one innermost (`FILTER_SET`, `/repo/dnstable/query.c:1428-1432`). -/
def liveFilters (q0 : Query) (keyLen : Nat) : List Filt → QMach → QMach
  | [], M => M
  | f :: fs, M => liveFilters q0 keyLen fs (filterQ f.1 (fun q => pureF (liveFilter q0 keyLen f q)) M)

/-- Timeouts in front of everything else, `/repo/dnstable/query.c:1713-1718`. -/
def liveTimeout (q0 : Query) (M : Mach) : QMach := if q0.lim.active then timeoutQ (constQ M) else constQ M

/-- The removal stage, `/repo/dnstable/query.c:1758-1761`. -/
def liveRemove (q0 : Query) (rm : Option (List Src)) (M : QMach) : QMach :=
  match rm with
  | some l => removeQ q0 l M
  | none => M

/-- The left join with the fill merger, `/repo/dnstable/query.c:1785-1790`. -/
def liveFill (q0 : Query) (fill : Option Src) (M : QMach) : QMach :=
  match fill with
  | some f => ljoinQ q0 mergeFunc M f.mach
  | none => M

/-- The time stages, `/repo/dnstable/query.c:1744-1795`; `filter_time_prefilter` and `filter_time` (917-936) read the query. -/
def liveTimes (q0 : Query) (rm : Option (List Src)) (fill : Option Src) (M : QMach) : QMach :=
  if q0.bounds.any then
    filterQ .filterTime (fun q => pureF (filterTime q.bounds false))
      (liveFill q0 fill (liveRemove q0 rm
        (filterQ .filterTimePrefilter (fun q => pureF (filterTime q.bounds true)) M)))
  else liveFill q0 fill M

/-- The offset stage, `/repo/dnstable/query.c:1798-1800`. -/
def liveOffset (q0 : Query) (M : QMach) : QMach :=
  if q0.offset > 0 then filterQ .filterOffset (fun _ => filterOffset) M else M

/-- A query iterator that reads its query (`struct query_iter`, `/repo/dnstable/query.c:76-121`). -/
structure LiveBuilt where
  source : QMach
  index : QMach
  view : View
  indirect : Option UInt8

/-- The iterator while the query is as given (`it->query`, `/repo/dnstable/query.c:77`). -/
def LiveBuilt.at (L : LiveBuilt) (q : Query) : Built := ⟨L.source.at q, L.index.at q, L.view, L.indirect⟩

/-- `dnstable_query_iter_common`, `/repo/dnstable/query.c:1701-1815`, for the query `q0`, whose `query_init_*` function decided
`p`. -/
def liveAssemble (q0 : Query) (S : Sources) (p : Plan) : LiveBuilt :=
  { source := liveOffset q0 (liveTimes q0 S.rm S.fill
      (liveFilters q0 p.view.lo.length p.onSource (liveTimeout q0 S.source)))
    index := liveFilters q0 p.view.lo.length p.onIndex (liveTimeout q0 S.index)
    view := p.view
    indirect := p.indirect }

/-- The state of an iterator does not depend on the query (`struct query_iter`, `/repo/dnstable/query.c:99`). -/
def QSt.to {L : LiveBuilt} {q : Query} (q' : Query) : QSt (L.at q) → QSt (L.at q')
  | .direct s => .direct s
  | .indirect tb i m => .indirect tb i m

/-- `query_iter_next`, `/repo/dnstable/query.c:976-1003`, and `query_iter_next_name_indirect`, `/repo/dnstable/query.c:1326-1407`, of an
iterator opened for `q0` whose query is now `q`.  The offset is the query's own and counted down there (938-953). -/
def liveNext (q0 : Query) (L : LiveBuilt) (q : Query) (s : QSt (L.at q0)) (w : World) :
    QRes × QSt (L.at q0) × Query × World :=
  let r := queryNext q (L.at q) (s.to q) { w with offset := q.offset }
  (r.1, r.2.1.to q0, { q with offset := r.2.2.offset }, r.2.2)

/-- What a program does with a query whose iterator is open: call a setter (`/repo/dnstable/query.c:197-514`) or
`dnstable_iter_next` (`/repo/dnstable/iter.c:58-64`). -/
inductive LiveOp where
  | set (s : Setter)
  | next
deriving DecidableEq, Repr

/-- A call of `dnstable_iter_next` (`/repo/dnstable/iter.c:58-64`): the query at that time, the worlds before and after it, and its
result. -/
structure LiveCall where
  query : Query
  before : World
  after : World
  res : QRes

/-- A sequence of such operations (`/repo/dnstable/query.c:197-514,976-1003,1326-1407`): the calls of `dnstable_iter_next`.  It ends
with a setter that is undefined (an address prefix, see `Arith`). -/
def liveRun (A : Arith) (T : Libs) (q0 : Query) (L : LiveBuilt) :
    List LiveOp → Query → QSt (L.at q0) → World → List LiveCall
  | [], _, _, _ => []
  | .set x :: os, q, s, w =>
    match applySetter A T q x with
    | .ok (q, _) => liveRun A T q0 L os q s w
    | _ => []
  | .next :: os, q, s, w =>
    let r := liveNext q0 L q s w
    ⟨q, { w with offset := q.offset }, r.2.2.2, r.1⟩ :: liveRun A T q0 L os r.2.2.1 r.2.1 r.2.2.2

end Verif
