import Verif.Model.Order
import Verif.Spec.Order

/-!
# Table iterators and the operators of `/repo/dnstable/query_mtbl.c`

The mtbl library itself is outside `/repo`; `curM` states the contract assumed of its readers and
mergers.  Everything else models code of `/repo/dnstable/query_mtbl.c`.
-/

namespace Verif
open Spec

/-- A key and its value (the out parameters of `mtbl_iter_next`, `/repo/dnstable/query_mtbl.c:354`). -/
abbrev KV := Bytes × Bytes

/-- The contents of an mtbl source in iteration order (`/repo/dnstable/query_mtbl.c:83-121`). -/
abbrev Table := List KV

/-- `struct timespec`, as used in `/repo/libmy/my_time.h:32-40`. -/
structure Timespec where
  sec : Int
  nsec : Int
deriving DecidableEq, Repr

/-- The carry loop of `my_timespec_add`, `/repo/libmy/my_time.h:36-39`: `n` bounds the number of
iterations (one is enough for normalised operands). -/
def carryNsec : Nat → Timespec → Timespec
  | 0, t => t
  | n + 1, t => if t.nsec ≥ 1000000000 then carryNsec n ⟨t.sec + 1, t.nsec - 1000000000⟩ else t

/-- `my_timespec_add(a, b)`, `/repo/libmy/my_time.h:32-40`: the new value of `*b`. -/
def timespecAdd (a b : Timespec) : Timespec :=
  carryNsec (a.nsec + b.nsec).toNat ⟨b.sec + a.sec, b.nsec + a.nsec⟩

/-- `my_timespec_cmp(a, b) >= 0`, `/repo/libmy/my_time.h:59-72`. -/
def timespecGe (a b : Timespec) : Bool :=
  if a.sec < b.sec then false
  else if a.sec > b.sec then true
  else if a.nsec < b.nsec then false
  else true

/-- `dnstable_stat_stage`, `/repo/dnstable/dnstable.h:69-80`. -/
inductive Stage where
  | fileset | filterSingleLabel | filterRrtype | filterBailiwick | filterTimePrefilter
  | removeStrict | fillMerger | ljoin | filterTime | filterOffset
deriving DecidableEq, Repr

/-- Counters of one stage (`struct filter_mtbl_stats`, `struct ljoin_mtbl_stats`,
`struct remove_mtbl_stats`, used at `/repo/dnstable/query_mtbl.c:136,336,582`). -/
structure Stats where
  filtered : Nat := 0
  seek : Nat := 0
  merged : Nat := 0
deriving DecidableEq, Repr

/-- What a table operation can observe and change besides its own iterator state: the clock (the
`i`-th reading returns `clock i`; nothing is assumed about it), the deadline and the validity of the
`setjmp` environment of the query iterator (`/repo/dnstable/query.c:94-95`), the query's remaining
offset (`/repo/dnstable/query.c:71`) and the statistics counters. -/
structure World where
  clock : Nat → Timespec
  tick : Nat
  deadline : Timespec
  armed : Bool
  offset : Nat
  stats : Stage → Stats

/-- Change the counters of one stage (`stats.filtered++` and the like,
`/repo/dnstable/query_mtbl.c:212,230,365,391,626,643,653`). -/
def World.upd (w : World) (g : Stage) (f : Stats → Stats) : World :=
  { w with stats := fun h => if h = g then f (w.stats h) else w.stats h }

/-- Result of `mtbl_iter_next` (`/repo/dnstable/query_mtbl.c:345-368`): an entry, failure (no more
entries), the `longjmp` of an expired deadline (`/repo/dnstable/query_mtbl.c:506`), or a fault. -/
inductive Res where
  | item (kv : KV)
  | done
  | timeout
  | fault (f : Fault)
deriving DecidableEq, Repr

/-- Which entries an iterator is opened for: `mtbl_source_iter`, `_get`, `_get_prefix`, `_get_range`
(`/repo/dnstable/query_mtbl.c:83-121`). -/
inductive View where
  | all
  | exact (k : Bytes)
  | pfx (p : Bytes)
  | range (a b : Bytes)
deriving DecidableEq, Repr

/-- The key the iterator starts at (contract of the calls at `/repo/dnstable/query_mtbl.c:83-121`). -/
def View.lo : View → Bytes
  | .all => []
  | .exact k => k
  | .pfx p => p
  | .range a _ => a

/-- Whether an entry reached by the iterator is still delivered (contract of the calls at
`/repo/dnstable/query_mtbl.c:83-121`; the upper end of a range is included). -/
def View.ok : View → Bytes → Bool
  | .all, _ => true
  | .exact k, x => x == k
  | .pfx p, x => p.isPrefixOf x
  | .range _ b, x => lexLe x b

/-- A source of entries together with its iterators: `struct mtbl_source`
(`/repo/dnstable/query_mtbl.c:83-121`).  `size` bounds the number of entries still to come; it only
serves to cut off endless loops, which are then reported as the fault `diverge`. -/
structure Mach where
  St : Type
  start : View → St
  next : St → World → Res × St × World
  seek : St → Bytes → World → Bool × St × World
  size : St → Nat

/-- Contract of an mtbl reader or merger over a table (external library, called at
`/repo/dnstable/query_mtbl.c:83-121,354,374`).  A seek positions the iterator at the first entry not
below the key, forwards or backwards.  It may or may not report failure when nothing is left to
deliver (`seekFails`); it never does otherwise. -/
def curM (T : Table) (seekFails : View → Bytes → Bool) : Mach where
  St := View × Table
  start V := (V, T.dropWhile fun kv => lexLt kv.1 V.lo)
  next s w :=
    match s.2 with
    | [] => (.done, s, w)
    | kv :: r => if s.1.ok kv.1 then (.item kv, (s.1, r), w) else (.done, s, w)
  seek s k w :=
    let r := T.dropWhile fun kv => lexLt kv.1 k
    (!(seekFails s.1 k && (r.filter fun kv => s.1.ok kv.1).isEmpty), (s.1, r), w)
  size s := s.2.length

/-! ## Timeout, `/repo/dnstable/query_mtbl.c:485-566` -/

/-- `timeout_mtbl`, `/repo/dnstable/query_mtbl.c:485-566`; `timeout_iter_next` 497-509.  A `longjmp`
without a live `setjmp` is a fault. -/
def timeoutM (M : Mach) : Mach where
  St := M.St
  start := M.start
  next s w :=
    let now := w.clock w.tick
    let w := { w with tick := w.tick + 1 }
    if timespecGe now w.deadline then
      if w.armed then (.timeout, s, w) else (.fault .staleJump, s, w)
    else M.next s w
  seek := M.seek
  size := M.size

/-! ## Filter, `/repo/dnstable/query_mtbl.c:331-475` -/

/-- What a filter function (`filter_mtbl_func`, called at `/repo/dnstable/query_mtbl.c:357-361`) does
with an entry: accept it, reject it, reject it and seek the iterator (its result is then that of the
seek), fail, or fault. -/
inductive Verdict where
  | pass
  | drop
  | seekTo (k : Bytes)
  | stop
  | fault (f : Fault)
deriving DecidableEq, Repr

/-- A filter function with its closure (`/repo/dnstable/query_mtbl.c:332-333`). -/
abbrev FilterFn := World → KV → Verdict × World

/-- A filter function that only looks at the entry (`/repo/dnstable/query.c:641-936`). -/
def pureF (f : KV → Verdict) : FilterFn := fun w kv => (f kv, w)

/-- The loop of `filter_iter_next`, `/repo/dnstable/query_mtbl.c:353-366`, with an iteration bound. -/
def filterLoop (g : Stage) (f : FilterFn) (M : Mach) : Nat → M.St → World → Res × M.St × World
  | 0, s, w => (.fault .diverge, s, w)
  | n + 1, s, w =>
    match M.next s w with
    | (.item kv, s, w) =>
      match f w kv with
      | (.pass, w) => (.item kv, s, w)
      | (.drop, w) => filterLoop g f M n s (w.upd g fun c => { c with filtered := c.filtered + 1 })
      | (.seekTo k, w) =>
        -- `seek_wrap_iter_seek`, lines 387-393
        match M.seek s k (w.upd g fun c => { c with seek := c.seek + 1 }) with
        | (true, s, w) =>
          filterLoop g f M n s (w.upd g fun c => { c with filtered := c.filtered + 1 })
        | (false, s, w) => (.done, s, w)
      | (.stop, w) => (.done, s, w)
      | (.fault e, w) => (.fault e, s, w)
    | r => r

/-- `filter_mtbl`, `/repo/dnstable/query_mtbl.c:331-475`. -/
def filterM (g : Stage) (f : FilterFn) (M : Mach) : Mach where
  St := M.St
  start := M.start
  next s w := filterLoop g f M (M.size s + 1) s w
  seek := M.seek
  size := M.size

/-! ## Left join, `/repo/dnstable/query_mtbl.c:130-321` -/

/-- `struct ljoin_mtbl_iter`, `/repo/dnstable/query_mtbl.c:139-149`; `rkv` is `right_key`/`right_val`. -/
structure LjoinSt (L R : Mach) where
  left : L.St
  right : R.St
  finished : Bool
  rkv : Option KV

/-- A merge function (`mtbl_merge_func`, called at `/repo/dnstable/query_mtbl.c:223-229`): key and
two values to the merged value, `fail` standing for a NULL result. -/
abbrev MergeFn := Bytes → Bytes → Bytes → Out Bytes

/-- Fetch the next right entry unless one is at hand, `/repo/dnstable/query_mtbl.c:191-199`
(`ljoin_iter_next`). -/
def ljoinFetch (L R : Mach) (s : LjoinSt L R) (w : World) : Res × LjoinSt L R × World :=
  match s.rkv with
  | some r => (.item r, s, w)
  | none =>
    match R.next s.right w with
    | (.item r, sr, w) => (.item r, { s with right := sr, rkv := some r }, w)
    | (x, sr, w) => (x, { s with right := sr }, w)

/-- Compare the right entry `r` at hand with the left entry `kv`,
`/repo/dnstable/query_mtbl.c:200-232` (`ljoin_iter_next`); `again` is the next round of the loop. -/
def ljoinCompare (merge : MergeFn) (L R : Mach) (kv : KV)
    (again : LjoinSt L R → World → Res × LjoinSt L R × World) (r : KV) (s : LjoinSt L R) (w : World) :
    Res × LjoinSt L R × World :=
  match bytesCompare r.1 kv.1 with
  | .lt =>
    match R.seek s.right kv.1 w with
    | (true, sr, w) =>
      again { s with right := sr, rkv := none } (w.upd .ljoin fun c => { c with seek := c.seek + 1 })
    | (false, sr, w) => (.item kv, { s with right := sr, finished := true }, w)
  | .gt => (.item kv, s, w)
  | .eq =>
    match merge kv.1 kv.2 r.2 with
    | .ok v => (.item (kv.1, v), s, w.upd .ljoin fun c => { c with merged := c.merged + 1 })
    | .fail => (.done, s, w)
    | .fault e => (.fault e, s, w)

/-- The loop of `ljoin_iter_next` over the right side, `/repo/dnstable/query_mtbl.c:190-233`, for the
left entry `kv`, with an iteration bound. -/
def ljoinLoop (merge : MergeFn) (L R : Mach) (kv : KV) :
    Nat → LjoinSt L R → World → Res × LjoinSt L R × World
  | 0, s, w => (.fault .diverge, s, w)
  | n + 1, s, w =>
    if s.finished then (.item kv, s, w)
    else
      match ljoinFetch L R s w with
      | (.item r, s, w) => ljoinCompare merge L R kv (ljoinLoop merge L R kv n) r s w
      | (.done, s, w) => (.item kv, { s with finished := true }, w)
      | (x, s, w) => (x, s, w)

/-- `ljoin_mtbl`, `/repo/dnstable/query_mtbl.c:130-321`; `ljoin_iter_seek` 151-167, `ljoin_iter_next`
169-236, `ljoin_source_iter_common` 248-259. -/
def ljoinM (merge : MergeFn) (L R : Mach) : Mach where
  St := LjoinSt L R
  start V := ⟨L.start V, R.start V, false, none⟩
  next s w :=
    match L.next s.left w with
    | (.item kv, sl, w) => ljoinLoop merge L R kv (R.size s.right + 3) { s with left := sl } w
    | (r, sl, w) => (r, { s with left := sl }, w)
  seek s k w :=
    match L.seek s.left k w with
    | (false, sl, w) => (false, { s with left := sl }, w)
    | (true, sl, w) =>
      match R.seek s.right k w with
      | (ok, sr, w) => (true, ⟨sl, sr, !ok, none⟩, w)
  size s := L.size s.left

/-! ## Removal, `/repo/dnstable/query_mtbl.c:568-836` -/

/-- A plain mtbl reader or merger: its contents and when its seeks report failure (see `curM`).  The
removal sources of `/repo/dnstable/query.c:1978` are of this kind. -/
structure Src where
  rows : Table
  seekFails : View → Bytes → Bool

/-- The source interface of a reader (`mtbl_reader_source`, `/repo/dnstable/query.c:1978`). -/
abbrev Src.mach (R : Src) : Mach := curM R.rows R.seekFails

/-- `struct remove_entry`, `/repo/dnstable/query_mtbl.c:585-592`: the removal source, its iterator
once opened, its current key, and the finished flag. -/
structure RmEntry where
  src : Src
  it : Option (View × Table)
  key : Bytes
  finished : Bool

/-- `struct remove_iter`, `/repo/dnstable/query_mtbl.c:594-603`.  `entries` is the linked list; the
array order used by `remove_iter_seek` is not kept (its iterations are independent of each other). -/
structure RemoveSt (M : Mach) where
  up : M.St
  entries : List RmEntry
  view : View

/-- Seek the iterator of a removal entry and fetch the next key,
`/repo/dnstable/query_mtbl.c:621-633,642-649`; `none` when either fails. -/
def rmFetch (R : Src) (s : View × Table) (k : Bytes) (w : World) :
    Option Bytes × (View × Table) × World :=
  match R.mach.seek s k w with
  | (false, s, w) => (none, s, w)
  | (true, s, w) =>
    match R.mach.next s (w.upd .removeStrict fun c => { c with seek := c.seek + 1 }) with
    | (.item kv, s, w) => (some kv.1, s, w)
    | (_, s, w) => (none, s, w)

/-- The inner `while` loop of `match_key`, `/repo/dnstable/query_mtbl.c:634-659`, for an opened entry,
with an iteration bound: whether its current key matches (`none`: bound exceeded). -/
def rmAdvance (k : Bytes) : Nat → RmEntry → View × Table → World → Option Bool × RmEntry × World
  | 0, e, s, w => (none, { e with it := some s }, w)
  | n + 1, e, s, w =>
    if e.finished then (some false, { e with it := some s }, w)
    else
      match bytesCompare e.key k with
      | .gt => (some false, { e with it := some s }, w)
      | .eq => (some true, { e with it := some s }, w)
      | .lt =>
        match rmFetch e.src s k w with
        | (some k', s, w) => rmAdvance k n { e with key := k' } s w
        | (none, s, w) => (some false, { e with it := some s, finished := true }, w)

/-- One round of the `for` loop of `match_key`, `/repo/dnstable/query_mtbl.c:618-659`: opens the
iterator on first use. -/
def rmEntryMatch (V : View) (k : Bytes) (e : RmEntry) (w : World) : Option Bool × RmEntry × World :=
  match e.it with
  | some s => rmAdvance k (e.src.rows.length + 2) e s w
  | none =>
    match rmFetch e.src (e.src.mach.start V) k w with
    | (none, s, w) => (some false, { e with it := some s, finished := true }, w)
    | (some k', s, w) => rmAdvance k (e.src.rows.length + 2) { e with key := k' } s w

/-- `match_key`, `/repo/dnstable/query_mtbl.c:605-663`; `seen` are the list elements before the
current one, in reverse order.  On a match the element moves to the head of the list. -/
def matchKey (V : View) (k : Bytes) : List RmEntry → List RmEntry → World →
    Option Bool × List RmEntry × World
  | seen, [], w => (some false, seen.reverse, w)
  | seen, e :: es, w =>
    match rmEntryMatch V k e w with
    | (some true, e, w) =>
      (some true, e :: (seen.reverse ++ es),
        w.upd .removeStrict fun c => { c with filtered := c.filtered + 1 })
    | (some false, e, w) => matchKey V k (e :: seen) es w
    | (none, e, w) => (none, seen.reverse ++ e :: es, w)

/-- The loop of `remove_iter_next`, `/repo/dnstable/query_mtbl.c:672-676`, with an iteration bound. -/
def removeLoop (M : Mach) : Nat → RemoveSt M → World → Res × RemoveSt M × World
  | 0, s, w => (.fault .diverge, s, w)
  | n + 1, s, w =>
    match M.next s.up w with
    | (.item kv, su, w) =>
      match matchKey s.view kv.1 [] s.entries w with
      | (some true, es, w) => removeLoop M n { s with up := su, entries := es } w
      | (some false, es, w) => (.item kv, { s with up := su, entries := es }, w)
      | (none, es, w) => (.fault .diverge, { s with up := su, entries := es }, w)
    | (r, su, w) => (r, { s with up := su }, w)

/-- One round of the loop of `remove_iter_seek`, `/repo/dnstable/query_mtbl.c:695-712`. -/
def rmEntrySeek (k : Bytes) (e : RmEntry) (w : World) : RmEntry × World :=
  match e.it with
  | none => (e, w)
  | some s =>
    if e.finished || bytesCompare e.key k == .gt then
      match rmFetch e.src s k w with
      | (some k', s, w) => ({ e with it := some s, key := k', finished := false }, w)
      | (none, s, w) => ({ e with it := some s, finished := true }, w)
    else (e, w)

/-- The loop of `remove_iter_seek`, `/repo/dnstable/query_mtbl.c:689-713`. -/
def rmSeekAll (k : Bytes) : List RmEntry → World → List RmEntry × World
  | [], w => ([], w)
  | e :: es, w =>
    let (e, w) := rmEntrySeek k e w
    let (es, w) := rmSeekAll k es w
    (e :: es, w)

/-- `remove_mtbl`, `/repo/dnstable/query_mtbl.c:576-836`; `remove_iter_next` 665-679,
`remove_iter_seek` 681-716, `remove_source_iter_common` 734-766. -/
def removeM (rms : List Src) (M : Mach) : Mach where
  St := RemoveSt M
  start V := ⟨M.start V, rms.map fun R => ⟨R, none, [], false⟩, V⟩
  next s w := removeLoop M (M.size s.up + 1) s w
  seek s k w :=
    let (es, w) := rmSeekAll k s.entries w
    match M.seek s.up k w with
    | (ok, su, w) => (ok, { s with up := su, entries := es }, w)
  size s := M.size s.up

end Verif
