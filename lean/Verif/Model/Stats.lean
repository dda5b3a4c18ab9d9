import Verif.Model.Query

/-!
# Reading the counters

`dnstable_iter_get_count` and the functions under it.  Counters are unbounded numbers here and `uint64_t` in C.
-/

namespace Verif

/-- What `query_iter_get_count` reads (`struct query_iter`, `/repo/dnstable/query.c:76-121`): which stages exist
(their pointers are not NULL), their counters, the counters of the file sets, and the number of removal sources. -/
structure IterStats where
  present : Stage → Bool
  stats : Stage → Stats
  filesetMerged : Nat
  filesetFiles : Nat
  fillMerged : Nat
  fillFiles : Nat
  rmFiles : Nat

/-- Success, `*exists` and `*count` after a call (`dnstable_iter_stat_func`, `/repo/dnstable/iter.c:66-78`). -/
structure Report where
  success : Bool
  found : Bool
  count : Nat
deriving DecidableEq, Repr

/-- `get_counter`, `/repo/dnstable/query.c:1005-1021`; categories are numbered as in
`/repo/dnstable/dnstable.h:82-87`, `count0` is what `*count` was before. -/
def getCounter (found : Bool) (filtered merged seek files : Nat) (category count0 : Nat) : Report :=
  match category with
  | 0 => ⟨true, found, filtered⟩
  | 1 => ⟨true, found, merged⟩
  | 2 => ⟨true, found, seek⟩
  | 3 => ⟨true, found, files⟩
  | _ => ⟨false, found, count0⟩

/-- `filter_mtbl_get_counter`, `/repo/dnstable/query_mtbl.c:440-465`. -/
def filterCounter (present : Bool) (s : Stats) (category : Nat) : Report :=
  if present then
    match category with
    | 0 => ⟨true, true, s.filtered⟩
    | 2 => ⟨true, true, s.seek⟩
    | 1 => ⟨true, false, 0⟩
    | 3 => ⟨true, false, 0⟩
    | _ => ⟨false, false, 0⟩
  else ⟨false, false, 0⟩

/-- `ljoin_mtbl_get_counter`, `/repo/dnstable/query_mtbl.c:285-311`. -/
def ljoinCounter (present : Bool) (s : Stats) (category : Nat) : Report :=
  if present then
    match category with
    | 0 => ⟨true, false, 0⟩
    | 3 => ⟨true, false, 0⟩
    | 2 => ⟨true, true, s.seek⟩
    | 1 => ⟨true, true, s.merged⟩
    | _ => ⟨false, false, 0⟩
  else ⟨false, false, 0⟩

/-- `remove_mtbl_get_counter`, `/repo/dnstable/query_mtbl.c:784-813`. -/
def removeCounter (present : Bool) (s : Stats) (files : Nat) (category : Nat) : Report :=
  if present then
    match category with
    | 1 => ⟨true, false, 0⟩
    | 0 => ⟨true, true, s.filtered⟩
    | 2 => ⟨true, true, s.seek⟩
    | 3 => ⟨true, true, files⟩
    | _ => ⟨false, false, 0⟩
  else ⟨false, false, 0⟩

/-- The stages that only filter, `/repo/dnstable/query.c:1043-1050,1061-1068` (`query_iter_get_count`): `*exists`
is theirs, the rest is `filter_mtbl_get_counter`'s. -/
def plainFilterCounter (present : Bool) (s : Stats) (category : Nat) : Report :=
  { filterCounter present s category with found := category == 0 && present }

/-- `query_iter_get_count`, `/repo/dnstable/query.c:1023-1076`; stages are numbered as in
`/repo/dnstable/dnstable.h:69-80`; `found0` and `count0` are what the results were before. -/
def queryIterGetCount (it : IterStats) (stage category : Nat) (found0 : Bool) (count0 : Nat) : Report :=
  match stage with
  | 0 => getCounter (category == 1 || category == 3) 0 it.filesetMerged 0 it.filesetFiles category count0
  | 1 => filterCounter (it.present .filterSingleLabel) (it.stats .filterSingleLabel) category
  | 2 => filterCounter (it.present .filterRrtype) (it.stats .filterRrtype) category
  | 3 => plainFilterCounter (it.present .filterBailiwick) (it.stats .filterBailiwick) category
  | 4 => plainFilterCounter (it.present .filterTimePrefilter) (it.stats .filterTimePrefilter) category
  | 5 => removeCounter (it.present .removeStrict) (it.stats .removeStrict) it.rmFiles category
  | 6 => getCounter ((category == 1 || category == 3) && it.present .fillMerger) 0 it.fillMerged 0 it.fillFiles
      category count0
  | 7 => ljoinCounter (it.present .ljoin) (it.stats .ljoin) category
  | 8 => plainFilterCounter (it.present .filterTime) (it.stats .filterTime) category
  | 9 => plainFilterCounter (it.present .filterOffset) (it.stats .filterOffset) category
  | _ => ⟨false, found0, count0⟩

/-- `dnstable_iter_get_count`, `/repo/dnstable/iter.c:66-78`: `it` is absent for a NULL iterator and for one
without a counting function; `count0` is absent for a NULL pointer. -/
def iterGetCount (it : Option IterStats) (stage category : Nat) (found0 : Bool) (count0 : Option Nat) : Report :=
  match it, count0 with
  | some it, some c => queryIterGetCount it stage category found0 c
  | _, c => ⟨false, found0, c.getD 0⟩

/-- The stages of an assembled query as `query_iter_get_count` sees them, `/repo/dnstable/query.c:76-121,1701-1815`:
a filter exists if the query put it on one of its sources.  The numbers of files (`stats.fileset_files` and
`stats.fill_files`, lines 1974 and 1982) are given. -/
def iterStats (q : Query) (S : Sources) (p : Plan) (files fillFiles : Nat) (w : World) : IterStats where
  present g :=
    match g with
    | .fileset => true
    | .filterTimePrefilter => q.bounds.any
    | .filterTime => q.bounds.any
    | .removeStrict => S.rm.isSome
    | .fillMerger => S.fill.isSome
    | .ljoin => S.fill.isSome
    | .filterOffset => decide (q.offset > 0)
    | g => (p.onSource ++ p.onIndex).any fun f => f.1 == g
  stats := w.stats
  filesetMerged := (w.stats .fileset).merged
  filesetFiles := files
  fillMerged := (w.stats .fillMerger).merged
  fillFiles := fillFiles
  rmFiles := (S.rm.getD []).length

end Verif
