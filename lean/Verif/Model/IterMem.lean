import Verif.Model.QueryMem
import Verif.Model.EntryMem
import Verif.Model.Fileset

/-!
# Iterators in memory (`/repo/dnstable/query_mtbl.c`, `/repo/dnstable/iter.c`, `/repo/dnstable/reader.c`,
`/repo/dnstable/query.c:590-612,1421-1826,1890-2058`)

Which blocks the stages of a query and the iterators on them own, allocate, use and free.  What they compute is in
`Verif.Model.Mtbl` and `Verif.Model.Query`; here, the course of a call of `dnstable_iter_next` is any sequence of
the steps that concern memory (`IterAct`, `QAct`), each of which accesses the blocks it goes through.

Objects of mtbl (sources, iterators, readers, mergers, file sets, options) are one block each.  An iterator of an mtbl
reader, merger or file set needs the block of that object until it is destroyed, and the blocks that their callbacks
use.  mtbl copies the keys it is given.
-/

namespace Verif

/-- Access to several objects.  (Glue of the model; see `mTouch` and `/repo/dnstable/query.c:209`.) -/
def touchAllMem : List Nat → Mem Unit
  | [] => pure ()
  | p :: ps => do
    mTouch p
    touchAllMem ps

/-! ## Sources and iterators, `/repo/dnstable/query_mtbl.c` -/

/-- An mtbl source: of an mtbl object with the blocks it needs, or one of `struct filter_mtbl`, `timeout_mtbl`,
`ljoin_mtbl`, `remove_mtbl` (`/repo/dnstable/query_mtbl.c:130-137,331-337,485-490,578-583`), each with its object `obj`,
its source object `src` and the sources it refers to.  `data` is what the filter function or the deadline needs. -/
inductive SrcMem where
  | base (needs : List Nat)
  | filter (obj src : Nat) (data : List Nat) (up : SrcMem)
  | timeout (obj src : Nat) (data : List Nat) (up : SrcMem)
  | ljoin (obj src : Nat) (left : SrcMem) (right : List Nat)
  | remove (obj src : Nat) (vec : VecMem) (rm : List Nat) (up : SrcMem)
deriving Repr

/-- An mtbl iterator: NULL, of an mtbl object, or on one of the stages: `outer` is the `struct mtbl_iter`, `self` its
private data (`/repo/dnstable/query_mtbl.c:139-149,339-343,492-495,585-603`). -/
inductive IterMem where
  | null
  | base (needs : List Nat) (outer : Nat)
  | filter (needs : List Nat) (outer self wrap : Nat) (it : IterMem)
  | timeout (needs : List Nat) (outer self : Nat) (it : IterMem)
  | ljoin (needs : List Nat) (outer self : Nat) (merged : Option Nat) (left right : IterMem)
  | remove (needs : List Nat) (outer self entries : Nat) (key key2 : Option Nat)
      (others : List (Nat × Option Nat)) (it : IterMem)
deriving Repr

/-- The pointer is NULL.  (`/repo/dnstable/query.c:1342,1804`.) -/
def IterMem.isNull : IterMem → Bool
  | .null => true
  | _ => false

/-- An iterator of an mtbl object; whether there is one, or NULL, is up to mtbl (`opens`).
(`mtbl_source_get_prefix` and the like at `/repo/dnstable/query_mtbl.c:83-121`.) -/
def openBaseMem (opens : Heap → Bool) (needs : List Nat) : Mem IterMem := do
  touchAllMem needs
  if opens (← get) then do
    let p ← mAlloc []
    pure (.base needs p)
  else pure .null

/-- A copy of a key, if it is not empty, `/repo/dnstable/query_mtbl.c:760-769`. -/
def copyKeyMem (len : Nat) : Mem (Option Nat) := do
  if len > 0 then do
    let p ← mAlloc []
    pure (some p)
  else pure none

/-- `filter_source_iter_common`, `timeout_source_iter_common`, `ljoin_source_iter_common`, `remove_source_iter_common`
(`/repo/dnstable/query_mtbl.c:248-259,399-416,529-541,745-782`), for keys of the given lengths. -/
def openIterMem (opens : Heap → Bool) (len len2 : Nat) : SrcMem → Mem IterMem
  | .base needs => openBaseMem opens needs
  | .filter obj src data up => do
    touchAllMem [src, obj]
    let fit ← mAlloc []
    let it ← openIterMem opens len len2 up
    let wrap ← mAlloc []
    let outer ← mAlloc []
    pure (.filter (obj :: data) outer fit wrap it)
  | .timeout obj src data up => do
    touchAllMem [src, obj]
    let t ← mAlloc []
    let it ← openIterMem opens len len2 up
    let outer ← mAlloc []
    pure (.timeout (obj :: data) outer t it)
  | .ljoin obj src left right => do
    touchAllMem [src, obj]
    let j ← mAlloc []
    let l ← openIterMem opens len len2 left
    let r ← openBaseMem opens right
    let outer ← mAlloc []
    pure (.ljoin [obj] outer j none l r)
  | .remove obj src vec rm up => do
    touchAllMem [src, obj]
    let rit ← mAlloc []
    let it ← openIterMem opens len len2 up
    let key ← copyKeyMem len
    let key2 ← copyKeyMem len2
    vecTouchMem vec
    let entries ← mAlloc []
    let outer ← mAlloc []
    pure (.remove (obj :: rm) outer rit entries key key2 (rm.map fun p => (p, none)) it)

/-- A step of an iterator that concerns memory: in the iterator below (the left one of a join), in the right one of a
join, a merge in a join with or without result (`/repo/dnstable/query_mtbl.c:219-230`), the opening of the
iterator over a file to remove (`/repo/dnstable/query_mtbl.c:618-634`), access to that iterator. -/
inductive IterAct where
  | inner (a : IterAct)
  | right (a : IterAct)
  | merge (success : Bool)
  | other (i : Nat)
  | self
deriving Repr

/-- The entry `i` of `rit->entries` has an iterator, which is accessed, or gets one if mtbl makes one
(`/repo/dnstable/query_mtbl.c:618-634`). -/
def otherMem (opens : Heap → Bool) : List (Nat × Option Nat) → Nat → Mem (List (Nat × Option Nat))
  | [], _ => pure []
  | (p, it) :: os, 0 =>
    match it with
    | some q => do
      touchAllMem [p, q]
      pure ((p, it) :: os)
    | none => do
      match ← openBaseMem opens [p] with
      | .base _ q => pure ((p, some q) :: os)
      | _ => pure ((p, none) :: os)
  | o :: os, i + 1 => do
    let os ← otherMem opens os i
    pure (o :: os)

/-- A step of an iterator.  `ljoin_iter_next`, `ljoin_iter_seek`, `filter_iter_next`, `filter_iter_seek`,
`seek_wrap_iter_seek`, `timeout_iter_next`, `timeout_iter_seek`, `match_key`, `remove_iter_next`, `remove_iter_seek`
(`/repo/dnstable/query_mtbl.c:151-236,345-397,497-527,605-728`). -/
def actMem (opens : Heap → Bool) : IterMem → IterAct → Mem IterMem
  | .null, _ => pure .null
  | .base needs outer, _ => do
    touchAllMem (outer :: needs)
    pure (.base needs outer)
  | .filter needs outer self wrap it, a => do
    touchAllMem (outer :: self :: wrap :: needs)
    match a with
    | .inner a => do
      let it ← actMem opens it a
      pure (.filter needs outer self wrap it)
    | _ => pure (.filter needs outer self wrap it)
  | .timeout needs outer self it, a => do
    touchAllMem (outer :: self :: needs)
    match a with
    | .inner a => do
      let it ← actMem opens it a
      pure (.timeout needs outer self it)
    | _ => pure (.timeout needs outer self it)
  | .ljoin needs outer self merged left right, a => do
    touchAllMem (outer :: self :: needs)
    match a with
    | .inner a => do
      let left ← actMem opens left a
      pure (.ljoin needs outer self merged left right)
    | .right a => do
      let right ← actMem opens right a
      pure (.ljoin needs outer self merged left right)
    | .merge success => do
      mFree merged
      if success then do
        let p ← mAlloc []
        pure (.ljoin needs outer self (some p) left right)
      else pure (.ljoin needs outer self none left right)
    | _ => pure (.ljoin needs outer self merged left right)
  | .remove needs outer self entries key key2 others it, a => do
    touchAllMem (outer :: self :: entries :: needs)
    match a with
    | .inner a => do
      let it ← actMem opens it a
      pure (.remove needs outer self entries key key2 others it)
    | .other i => do
      let others ← otherMem opens others i
      pure (.remove needs outer self entries key key2 others it)
    | _ => pure (.remove needs outer self entries key key2 others it)

/-- The iterators over the files to remove are destroyed, `/repo/dnstable/query_mtbl.c:738-740`. -/
def destroyOthersMem : List (Nat × Option Nat) → Mem Unit
  | [] => pure ()
  | (p, it) :: os => do
    match it with
    | some q => do
      touchAllMem [p]
      mFree (some q)
    | none => pure ()
    destroyOthersMem os

/-- `mtbl_iter_destroy`, which calls `ljoin_iter_free`, `filter_iter_free` (with `seek_wrap_iter_free`),
`timeout_iter_free`, `remove_iter_free` (`/repo/dnstable/query_mtbl.c:238-246,373-397,521-527,730-743`). -/
def destroyIterMem : IterMem → Mem Unit
  | .null => pure ()
  | .base needs outer => do
    touchAllMem needs
    mFree (some outer)
  | .filter _ outer self wrap it => do
    touchAllMem [outer, self]
    destroyIterMem it
    mFree (some wrap)
    mFree (some self)
    mFree (some outer)
  | .timeout _ outer self it => do
    touchAllMem [outer, self]
    destroyIterMem it
    mFree (some self)
    mFree (some outer)
  | .ljoin _ outer self merged left right => do
    touchAllMem [outer, self]
    mFree merged
    destroyIterMem left
    destroyIterMem right
    mFree (some self)
    mFree (some outer)
  | .remove _ outer self entries _ _ others it => do
    touchAllMem [outer, self]
    destroyIterMem it
    touchAllMem [entries]
    destroyOthersMem others
    mFree (some entries)
    mFree (some self)
    mFree (some outer)

/-- A stage: its object and its source object (`/repo/dnstable/query_mtbl.c:130-137,331-337,485-490`). -/
structure StageMem where
  obj : Nat
  src : Nat
deriving DecidableEq, Repr

/-- `filter_mtbl_init`, `timeout_mtbl_init`, `ljoin_mtbl_init` (`/repo/dnstable/query_mtbl.c:270-283,426-435,551-560`). -/
def stageInitMem : Mem StageMem := do
  let obj ← mAlloc []
  let src ← mAlloc []
  pure ⟨obj, src⟩

/-- `filter_mtbl_destroy`, `timeout_mtbl_destroy`, `ljoin_mtbl_destroy`
(`/repo/dnstable/query_mtbl.c:313-321,465-473,562-570`). -/
def stageDestroyMem : Option StageMem → Mem Unit
  | none => pure ()
  | some s => do
    mTouch s.obj
    mFree (some s.src)
    mFree (some s.obj)

/-- A removal stage with its vector of sources (`struct remove_mtbl`, `/repo/dnstable/query_mtbl.c:578-583`). -/
structure RemoveMem where
  obj : Nat
  src : Nat
  vec : VecMem
  rm : List Nat := []
deriving DecidableEq, Repr

/-- `remove_mtbl_init`, `/repo/dnstable/query_mtbl.c:791-798`. -/
def removeInitMem : Mem RemoveMem := do
  let obj ← mAlloc []
  let vec ← vecInitMem
  let src ← mAlloc []
  pure { obj := obj, src := src, vec := vec }

/-- `remove_mtbl_destroy`, `/repo/dnstable/query_mtbl.c:827-836`. -/
def removeDestroyMem : Option RemoveMem → Mem Unit
  | none => pure ()
  | some r => do
    mTouch r.obj
    vecDestroyMem (some r.vec)
    mFree (some r.src)
    mFree (some r.obj)

/-! ## Query iterators, `/repo/dnstable/query.c` -/

/-- `struct query_iter`, `/repo/dnstable/query.c:76-121`.  `query` is the block of the query, `q` the query when the
iterator was made; `keyLen`, `key2Len` are the lengths of the keys the iterators are opened with; `fill` the files
given to the merger; `filters` the pointers `filter_single_label` up to `filter_offset`. -/
structure QIterMem where
  self : Nat
  query : Nat
  q : Query
  source : SrcMem
  index : SrcMem
  fsFilter : Option Nat := none
  ljoin : Option StageMem := none
  fillMerger : Option Nat := none
  fill : List Nat := []
  removeStrict : Option RemoveMem := none
  fsNoMerge : Option Nat := none
  timeout : Option StageMem := none
  timeoutIndex : Option StageMem := none
  mIter : IterMem := .null
  mIter2 : IterMem := .null
  key : Option VecMem := none
  key2 : Option VecMem := none
  keyLen : Nat := 0
  key2Len : Nat := 0
  filters : Stage → Option StageMem := fun _ => none
  indirect : Bool := false

/-- `query_iter_free`, `/repo/dnstable/query.c:590-612`. -/
def queryIterFreeMem (it : QIterMem) : Mem Unit := do
  mTouch it.self
  destroyIterMem it.mIter
  destroyIterMem it.mIter2
  stageDestroyMem it.ljoin
  mFree it.fsFilter
  mFree it.fsNoMerge
  mFree it.fillMerger
  stageDestroyMem it.timeout
  stageDestroyMem it.timeoutIndex
  stageDestroyMem (it.filters .filterSingleLabel)
  stageDestroyMem (it.filters .filterRrtype)
  stageDestroyMem (it.filters .filterBailiwick)
  stageDestroyMem (it.filters .filterTimePrefilter)
  stageDestroyMem (it.filters .filterTime)
  stageDestroyMem (it.filters .filterOffset)
  removeDestroyMem it.removeStrict
  vecDestroyMem it.key
  vecDestroyMem it.key2
  mFree (some it.self)

/-- What a filter function uses: the iterator and the query (`filter_data`, `/repo/dnstable/query.c:1425`). -/
def QIterMem.data (it : QIterMem) : List Nat := [it.self, it.query]

/-- `FILTER_SET` on `it->source`, `/repo/dnstable/query.c:1428-1432`, if the condition (as in `FILTER_SET_COND`,
`/repo/dnstable/query.c:1421-1427`) holds. -/
def filterIfMem (c : Bool) (s : Stage) (it : QIterMem) : Mem QIterMem := do
  if c then do
    let st ← stageInitMem
    pure { it with
      filters := fun t => if t = s then some st else it.filters t
      source := .filter st.obj st.src it.data it.source }
  else pure it

/-- The same on `it->source_index`, `/repo/dnstable/query.c:1448,1583`. -/
def indexFilterIfMem (c : Bool) (s : Stage) (it : QIterMem) : Mem QIterMem := do
  if c then do
    let st ← stageInitMem
    pure { it with
      filters := fun t => if t = s then some st else it.filters t
      index := .filter st.obj st.src it.data it.index }
  else pure it

/-- The timeout stages, `/repo/dnstable/query.c:1713-1718`. -/
def timeoutsMem (it : QIterMem) : Mem QIterMem := do
  if it.q.lim.active then do
    let t ← stageInitMem
    let it := { it with timeout := some t, source := .timeout t.obj t.src [it.self] it.source }
    let t ← stageInitMem
    pure { it with timeoutIndex := some t, index := .timeout t.obj t.src [it.self] it.index }
  else pure it

/-- `it->key = ubuf_init(64)`, `/repo/dnstable/query.c:1515,1600,1629,1657`. -/
def newKeyMem (it : QIterMem) : Mem QIterMem := do
  let k ← vecInitMem
  pure { it with key := some k }

/-- Appending to `it->key`, such as at `/repo/dnstable/query.c:1442-1445`: its length is then `n`. -/
def setKeyMem (it : QIterMem) (n : Nat) : Mem QIterMem := do
  match it.key with
  | some k => do
    vecTouchMem k
    pure { it with keyLen := n }
  | none => mPure (.fault .nullDeref)

/-- `dnstable_iter_init`, `/repo/dnstable/iter.c:27-38`, as the `query_init_*` functions call it. -/
def doneMem (it : QIterMem) : Mem (QIterMem × Option Nat) := do
  let d ← mAlloc []
  pure (it, some d)

/-- `query_init_rrset_right_wildcard`, `/repo/dnstable/query.c:1438-1456`. -/
def initRrsetRightMem (opens : Heap → Bool) (it : QIterMem) (plus : Bool) : Mem (QIterMem × Option Nat) := do
  let it ← setKeyMem it (1 + (it.q.name.length - 3))
  let it ← indexFilterIfMem plus .filterSingleLabel it
  let m ← openIterMem opens it.keyLen 0 it.index
  let it := { it with mIter2 := m, indirect := true }
  let it ← filterIfMem it.q.doRrtype .filterRrtype it
  let it ← filterIfMem it.q.bailiwick.isSome .filterBailiwick it
  doneMem it

/-- `query_init_rrset_left_wildcard`, `/repo/dnstable/query.c:1458-1478`. -/
def initRrsetLeftMem (it : QIterMem) (plus : Bool) : Mem (QIterMem × Option Nat) := do
  match ← mTry (leftWildcardKey 0 it.q.name) with
  | none => pure (it, none)
  | some key => do
    let it ← setKeyMem it key.length
    let it ← filterIfMem plus .filterSingleLabel it
    let it ← filterIfMem it.q.doRrtype .filterRrtype it
    let it ← filterIfMem it.q.bailiwick.isSome .filterBailiwick it
    doneMem it

/-- The remainder of `query_init_rrset`, `/repo/dnstable/query.c:1521-1546`, which destroys the key itself if the name
is malformed. -/
def initRrsetExactMem (it : QIterMem) : Mem (QIterMem × Option Nat) := do
  match ← mTry (reverseName it.q.name) with
  | none => do
    vecDestroyMem it.key
    pure ({ it with key := none }, none)
  | some rev =>
    if it.q.name.length > maxLenName then mPure (.fault .oobWrite)
    else if it.q.doRrtype then do
      let key ← mPure (addRrtype (0 :: rev) it.q.rrtype)
      let it ← setKeyMem it (key ++ it.q.bailiwick.getD []).length
      doneMem it
    else do
      let it ← setKeyMem it (0 :: rev).length
      let it ← filterIfMem it.q.bailiwick.isSome .filterBailiwick it
      doneMem it

/-- `query_init_rrset`, `/repo/dnstable/query.c:1510-1547`. -/
def initRrsetMem (opens : Heap → Bool) (it : QIterMem) : Mem (QIterMem × Option Nat) := do
  let it ← newKeyMem it
  match isLeftWildcard it.q.name with
  | some plus => initRrsetLeftMem it plus
  | none =>
    match isRightWildcard it.q.name with
    | some plus => initRrsetRightMem opens it plus
    | none => initRrsetExactMem it

/-- `query_init_rdata_right_wildcard`, `/repo/dnstable/query.c:1549-1561`. -/
def initRdataRightMem (it : QIterMem) (plus : Bool) : Mem (QIterMem × Option Nat) := do
  let it ← setKeyMem it (1 + (it.q.name.length - 3))
  let it ← filterIfMem plus .filterSingleLabel it
  doneMem it

/-- `query_init_rdata_left_wildcard`, `/repo/dnstable/query.c:1568-1587`. -/
def initRdataLeftMem (opens : Heap → Bool) (it : QIterMem) (plus : Bool) : Mem (QIterMem × Option Nat) := do
  match ← mTry (leftWildcardKey 3 it.q.name) with
  | none => pure (it, none)
  | some key => do
    let it ← setKeyMem it key.length
    let it ← indexFilterIfMem plus .filterSingleLabel it
    let m ← openIterMem opens it.keyLen 0 it.index
    let it := { it with mIter2 := m, indirect := true }
    doneMem it

/-- The remainder of `query_init_rdata_name`, `/repo/dnstable/query.c:1606-1620`. -/
def initRdataExactMem (it : QIterMem) : Mem (QIterMem × Option Nat) := do
  let key ← mPure (if it.q.doRrtype ∧ standaloneTypes.contains it.q.rrtype then addRrtype (2 :: it.q.name) it.q.rrtype
                   else .ok (2 :: it.q.name))
  let it ← setKeyMem it key.length
  doneMem it

/-- `query_init_rdata_name`, `/repo/dnstable/query.c:1589-1621`. -/
def initRdataNameMem (opens : Heap → Bool) (it : QIterMem) : Mem (QIterMem × Option Nat) := do
  let it ← filterIfMem true .filterRrtype it
  let it ← newKeyMem it
  match isRightWildcard it.q.name with
  | some plus => initRdataRightMem it plus
  | none =>
    match isLeftWildcard it.q.name with
    | some plus => initRdataLeftMem opens it plus
    | none => initRdataExactMem it

/-- `query_init_rdata_ip`, `/repo/dnstable/query.c:1623-1652`. -/
def initRdataIpMem (it : QIterMem) : Mem (QIterMem × Option Nat) := do
  mPure (Out.assert it.q.doRrtype)
  mPure (Out.assert (it.q.ip1.length > 0))
  let it ← newKeyMem it
  let key ← mPure (addRrtype (2 :: it.q.ip1) it.q.rrtype)
  let it ← setKeyMem it key.length
  if it.q.ip2.length > 0 then do
    let k ← vecInitMem
    let key2 ← mPure (addRrtype (2 :: it.q.ip2) it.q.rrtype)
    let (_, key2) ← mPure (incrementKey key2 (key2.length - 1))
    vecTouchMem k
    let it ← filterIfMem true .filterRrtype { it with key2 := some k, key2Len := key2.length }
    doneMem it
  else do
    let it ← filterIfMem true .filterRrtype it
    doneMem it

/-- `query_init_rdata_raw`, `/repo/dnstable/query.c:1654-1673`. -/
def initRdataRawMem (it : QIterMem) : Mem (QIterMem × Option Nat) := do
  let it ← newKeyMem it
  let d ← mPure (rdataBytes it.q)
  let it ← setKeyMem it (1 + d.length)
  let it ← filterIfMem it.q.doRrtype .filterRrtype it
  doneMem it

/-- `query_init_time_range`, `query_init_source_info`, `query_init_version`, `/repo/dnstable/query.c:1675-1699`: a key of
the given length. -/
def initPlainMem (it : QIterMem) (n : Nat) : Mem (QIterMem × Option Nat) := do
  let it ← newKeyMem it
  let it ← setKeyMem it n
  doneMem it

/-- The dispatch on the query type, `/repo/dnstable/query.c:1720-1736`. -/
def initKindMem (opens : Heap → Bool) (it : QIterMem) : Mem (QIterMem × Option Nat) :=
  match it.q.qType with
  | .rrset => initRrsetMem opens it
  | .rdataName => initRdataNameMem opens it
  | .rdataIp => initRdataIpMem it
  | .rdataRaw => initRdataRawMem it
  | .timeRange => initPlainMem it 1
  | .sourceInfo => initPlainMem it 1
  | .version => initPlainMem it (if it.q.hasVType then 2 else 1)

/-- The prefilter and the removal stage, `/repo/dnstable/query.c:1744-1768`. -/
def prefilterMem (it : QIterMem) : Mem QIterMem := do
  if it.q.bounds.any then do
    let it ← filterIfMem true .filterTimePrefilter it
    match it.removeStrict with
    | some r => do
      mTouch r.obj
      pure { it with source := .remove r.obj r.src r.vec r.rm it.source }
    | none => pure it
  else pure it

/-- The left join, `/repo/dnstable/query.c:1785-1790`. -/
def fillMem (it : QIterMem) : Mem QIterMem := do
  match it.fillMerger with
  | some p => do
    mTouch p
    let j ← stageInitMem
    pure { it with ljoin := some j, source := .ljoin j.obj j.src it.source (p :: it.self :: it.fill) }
  | none => pure it

/-- An iterator of the library, `struct dnstable_iter` (`/repo/dnstable/iter.c:20-25`), of a query. -/
structure DIterMem where
  self : Nat
  it : QIterMem

/-- The stages of `dnstable_query_iter_common` behind those of the query types, and the opening of `m_iter`,
`/repo/dnstable/query.c:1743-1811`. -/
def finishMem (opens : Heap → Bool) (it : QIterMem) (d : Nat) : Mem (Option DIterMem) := do
  let it ← prefilterMem it
  let it ← fillMem it
  let it ← filterIfMem (it.filters .filterTimePrefilter).isSome .filterTime it
  let it ← filterIfMem (decide (it.q.offset > 0)) .filterOffset it
  if it.mIter2.isNull then do
    let m ← openIterMem opens it.keyLen it.key2Len it.source
    pure (some ⟨d, { it with mIter := m }⟩)
  else pure (some ⟨d, it⟩)

/-- `dnstable_query_iter_common`, `/repo/dnstable/query.c:1701-1815`; `none` is NULL. -/
def iterCommonMem (opens : Heap → Bool) (it : QIterMem) : Mem (Option DIterMem) := do
  mTouch it.query
  let it ← timeoutsMem it
  let (it, d) ← initKindMem opens it
  match d with
  | none => do
    queryIterFreeMem it
    pure none
  | some d => finishMem opens it d

/-- `dnstable_query_iter`, `/repo/dnstable/query.c:1817-1826`; `source` is what the given source needs. -/
def queryIterMem (opens : Heap → Bool) (m : QueryMem) (source : List Nat) : Mem (Option DIterMem) := do
  let p ← mAlloc []
  iterCommonMem opens { self := p, query := m.self, q := m.q, source := .base source, index := .base source }

/-- `dnstable_iter_destroy`, `/repo/dnstable/iter.c:40-48`, with `query_iter_free`; `none` is a NULL pointer, as which
the caller's pointer is left. -/
def iterDestroyMem : Option DIterMem → Mem (Option DIterMem)
  | none => pure none
  | some d => do
    mTouch d.self
    queryIterFreeMem d.it
    mFree (some d.self)
    pure none

/-! ## Iteration -/

/-- The steps of `query_iter_next` and `query_iter_next_name_indirect` that concern memory
(`/repo/dnstable/query.c:976-1003,1326-1407`): steps of `m_iter` and `m_iter2`, the creation of `key2` by filters
(`/repo/dnstable/query.c:715-716,1111-1113`), the opening of `m_iter` for an entry of the index (key of the given length,
`/repo/dnstable/query.c:1357-1387`), its destruction at its end (`/repo/dnstable/query.c:1396`), the decoding of an entry. -/
inductive QAct where
  | step (a : IterAct)
  | index (a : IterAct)
  | scratch
  | look (len : Nat)
  | done
  | deliver (key val : Bytes)
deriving Repr

/-- `it->key2`, created if it is NULL, `/repo/dnstable/query.c:715-716,1111-1113,1357-1359`. -/
def scratchMem (it : QIterMem) : Mem QIterMem := do
  match it.key2 with
  | some k => do
    vecTouchMem k
    pure it
  | none => do
    let k ← vecInitMem
    pure { it with key2 := some k }

/-- One such step: the iterator and the entry decoded, if any.  (`/repo/dnstable/query.c:976-1003,1326-1407`.) -/
def qActMem (opens : Heap → Bool) (it : QIterMem) : QAct → Mem (QIterMem × Option EntryMem)
  | .step a => do
    let m ← actMem opens it.mIter a
    pure ({ it with mIter := m }, none)
  | .index a => do
    let m ← actMem opens it.mIter2 a
    pure ({ it with mIter2 := m }, none)
  | .scratch => do
    let it ← scratchMem it
    pure (it, none)
  | .look len =>
    if it.indirect && it.mIter.isNull then do
      let it ← scratchMem it
      let m ← openIterMem opens len 0 it.source
      pure ({ it with mIter := m }, none)
    else pure (it, none)
  | .done =>
    if it.indirect then do
      destroyIterMem it.mIter
      pure ({ it with mIter := .null }, none)
    else pure (it, none)
  | .deliver key val => do
    let e ← entryDecodeMem key val
    pure (it, e)

/-- The loops of `query_iter_next` and `query_iter_next_name_indirect` (`/repo/dnstable/query.c:986-1002,1340-1406`): steps
until an entry is decoded; without one the call fails or times out. -/
def qActsMem (opens : Heap → Bool) (it : QIterMem) : List QAct → Mem (QIterMem × Option EntryMem)
  | [] => pure (it, none)
  | a :: as => do
    touchAllMem it.data
    let (it, e) ← qActMem opens it a
    match e with
    | some e => pure (it, some e)
    | none => qActsMem opens it as

/-- `dnstable_iter_next`, `/repo/dnstable/iter.c:58-64`. -/
def iterNextMem (opens : Heap → Bool) (d : DIterMem) (as : List QAct) : Mem (DIterMem × Option EntryMem) := do
  mTouch d.self
  let (it, e) ← qActsMem opens d.it as
  pure ({ d with it := it }, e)

/-! ## File sets, `/repo/dnstable/query.c:1890-2058` -/

/-- A file of a set: its block and the steps of the search for its time range (`/repo/dnstable/query.c:1890-1903`). -/
structure FileMem where
  block : Nat
  acts : List QAct
deriving Repr

/-- The decision about a file, given its time range entry, `/repo/dnstable/query.c:1904-1964`. -/
def fenceEntry (b : Bounds) (e : Option EntryMem) : Fence :=
  match e with
  | none => .keep
  | some m =>
    match m.e.getTimeFirst, m.e.getTimeLast with
    | .ok minFirst, .ok maxLast => fenceTimes b minFirst maxLast
    | _, _ => .keep

/-- `reader_time_filter` up to the label `out` and the destructors there, `/repo/dnstable/query.c:1890-1969`: the query for the
time range, with everything it allocates. -/
def lookTimesMem (opens : Heap → Bool) (b : Bounds) (f : FileMem) : Mem Fence := do
  let q ← queryInitMem .timeRange
  let d ← queryIterMem opens q [f.block]
  let (d, e) ← (match d with
    | none => pure (none, none)
    | some d => do
      let (d, e) ← iterNextMem opens d f.acts
      pure (some d, e))
  let r := fenceEntry b e
  let _ ← entryDestroyMem e
  let _ ← iterDestroyMem d
  let _ ← queryDestroyMem (some q)
  pure r

/-- `reader_time_filter`, `/repo/dnstable/query.c:1890-1985`: the file is put into the fill merger or the removal stage,
if there is one; whether it is kept. -/
def timeFilterMem (opens : Heap → Bool) (it : QIterMem) (f : FileMem) : Mem (QIterMem × Bool) := do
  touchAllMem it.data
  let r ← lookTimesMem opens it.q.bounds f
  match r with
  | .keep => pure (it, true)
  | .fill =>
    match it.fillMerger with
    | some p => do
      mTouch p
      pure ({ it with fill := it.fill ++ [f.block] }, false)
    | none => pure (it, false)
  | .remove =>
    match it.removeStrict with
    | some r => do
      mTouch r.obj
      vecTouchMem r.vec
      pure ({ it with removeStrict := some { r with rm := r.rm ++ [f.block] } }, false)
    | none => pure (it, false)

/-- `mtbl_fileset_dup` calls the reader filter for each file (`/repo/dnstable/query.c:2012,2035,2050`): the files kept. -/
def timeFiltersMem (opens : Heap → Bool) (it : QIterMem) : List FileMem → Mem (QIterMem × List Nat)
  | [] => pure (it, [])
  | f :: fs => do
    let (it, keep) ← timeFilterMem opens it f
    let (it, kept) ← timeFiltersMem opens it fs
    pure (it, if keep then f.block :: kept else kept)

/-- The fill merger and the removal stage, `/repo/dnstable/query.c:2020-2033`. -/
def mergersMem (it : QIterMem) : Mem QIterMem := do
  if it.q.aggregated && it.q.bounds.any then do
    let it ← (if it.q.bounds.firstAfter.isSome || it.q.bounds.lastBefore.isSome then do
        let r ← removeInitMem
        pure { it with removeStrict := some r }
      else pure it)
    let mopt ← mAlloc []
    let m ← mAlloc []
    mFree (some mopt)
    pure { it with fillMerger := some m }
  else pure it

/-- `dnstable_query_iter_fileset`, `/repo/dnstable/query.c:2003-2058`; `fs` is the block of the file set, which its copies
are taken to need. -/
def queryIterFilesetMem (opens : Heap → Bool) (m : QueryMem) (fs : Nat) (files : List FileMem) :
    Mem (Option DIterMem) := do
  let p ← mAlloc []
  mTouch m.self
  let it : QIterMem := { self := p, query := m.self, q := m.q, source := .base [], index := .base [] }
  let fopt ← mAlloc []
  let it ← mergersMem it
  touchAllMem [fs, fopt]
  let f ← mAlloc []
  let (it, kept) ← timeFiltersMem opens it files
  let src := SrcMem.base (f :: fs :: it.self :: kept)
  let it := { it with fsFilter := some f, source := src, index := src }
  let it ← (if it.q.aggregated then pure it else do
      touchAllMem [fs, fopt]
      let f ← mAlloc []
      let (it, kept) ← timeFiltersMem opens it files
      pure { it with fsNoMerge := some f, source := .base (f :: fs :: it.self :: kept) })
  mFree (some fopt)
  iterCommonMem opens it

end Verif
