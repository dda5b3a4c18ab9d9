import Verif.Model.Query
import Verif.Model.Merger

/-!
# Queries over file sets (`/repo/dnstable/query.c:1871-2058`)

The part of `dnstable_query_iter_fileset` that decides which file goes where.  Files are mtbl readers
(`Src`).  Each of them is handed once to the reader filter; the sets of kept, filled and removed files
are then fixed for the life of the iterator.  Merging is modelled eagerly: `aggregated` delivers all
rows of a merger at once, or reports how one of the merges breaks down, while mtbl merges rows as they
are read.  Counters of merges and files are not modelled here.
-/

namespace Verif

/-- What the reader filter does with a file (`fill`, `remove`, neither; `/repo/dnstable/query.c:1899-1900`). -/
inductive Fence where
  | keep | fill | remove
deriving DecidableEq, Repr

/-- The tests of `reader_time_filter` on the time range of a file, `/repo/dnstable/query.c:1913-1964`. -/
def fenceTimes (b : Bounds) (minFirst maxLast : Nat) : Fence :=
  if b.firstAfter.any (fun x => x > maxLast) then .remove
  else if b.lastAfter.any (fun x => x > maxLast) then .fill
  else if b.lastBefore.any (fun x => x < minFirst) then .remove
  else if b.firstBefore.any (fun x => x < minFirst) && !b.lastAfter.isSome then .fill
  else .keep

/-- The query `reader_time_filter` makes, `/repo/dnstable/query.c:1895`. -/
def timeRangeQuery : Query := { qType := .timeRange }

/-- `reader_time_filter`, `/repo/dnstable/query.c:1890-1985`: the file's time range is looked up with a
query; a file without one is kept.  The new query's offset is 0. -/
def fence (b : Bounds) (f : Src) (w : World) : Out Fence := do
  let p ← initKind timeRangeQuery
  let B := assemble timeRangeQuery (plainSources f.mach) p
  match (queryNext timeRangeQuery B B.start { w with offset := 0 }).1 with
  | .entry e =>
    match e.getTimeFirst, e.getTimeLast with
    | .ok minFirst, .ok maxLast => .ok (fenceTimes b minFirst maxLast)
    | _, _ => .ok .keep
  | .failure => .ok .keep
  | .timeout => .ok .keep
  | .fault x => .fault x

/-- The files with their decisions: the reader filter is called for every file of the set
(`mtbl_fileset_options_set_reader_filter_func`, `/repo/dnstable/query.c:2012`). -/
def fenceAll (b : Bounds) (w : World) : List Src → Out (List (Fence × Src))
  | [] => .ok []
  | f :: fs => do
    let d ← fence b f w
    let ds ← fenceAll b w fs
    .ok ((d, f) :: ds)

/-- The files with a given decision (`/repo/dnstable/query.c:1971-1984`). -/
def chosen (d : Fence) (ds : List (Fence × Src)) : List Src :=
  (ds.filter fun x => x.1 == d).map (·.2)

/-- The contents of the merged file set and of the fill merger, and the files to remove
(`it->fs_filter`, `it->fill_merger`, `it->remove_strict`; `/repo/dnstable/query.c:84-91`). -/
structure Fenced where
  kept : Table
  fill : Table
  removed : List Src

/-- What mtbl is free to do: the order in which equal keys of a merger are read, whether seeks to the end
are reported as failures (contracts at `aggregated` and `curM`, called from `/repo/dnstable/query.c:2028-2037`). -/
structure FsEnv where
  pickKept : List Table → Nat
  pickFill : List Table → Nat
  seekKept : View → Bytes → Bool
  seekIndex : View → Bytes → Bool
  seekFill : View → Bytes → Bool

/-- The file sets of `dnstable_query_iter_fileset`, `/repo/dnstable/query.c:2003-2037`, for an aggregated query. -/
def fencedFiles (b : Bounds) (env : FsEnv) (w : World) (files : List Src) : Out Fenced := do
  let ds ← fenceAll b w files
  let kept ← aggregated env.pickKept ((chosen .keep ds).map (·.rows))
  let fill ← aggregated env.pickFill ((chosen .fill ds).map (·.rows))
  .ok { kept := kept, fill := fill, removed := chosen .remove ds }

/-- The sources of an aggregated query, `/repo/dnstable/query.c:2020-2037`: the fill merger exists if there is any
time bound, the removal stage if there is a strict one. -/
def filesetSources (b : Bounds) (env : FsEnv) (F : Fenced) : Sources :=
  { source := curM F.kept env.seekKept
    index := curM F.kept env.seekIndex
    rm := if b.any && (b.firstAfter.isSome || b.lastBefore.isSome) then some F.removed else none
    fill := if b.any then some ⟨F.fill, env.seekFill⟩ else none }

end Verif
