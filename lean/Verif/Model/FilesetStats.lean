import Verif.Model.Stats
import Verif.Model.Fileset

/-!
# Counting the files of a query (`/repo/dnstable/query.c:1971-1984`)

`reader_time_filter` counts files as it decides about them.  It is called once for every file of each file set made
with it (contract of mtbl, see `fenceAll`).
-/

namespace Verif

/-- What `reader_time_filter` does to `stats.fileset_files` and `stats.fill_files` once it has decided about a file,
`/repo/dnstable/query.c:1971-1984`; `hasFill` tells whether there is a fill merger. -/
def countFile (hasFill : Bool) (c : Nat × Nat) (d : Fence) : Nat × Nat :=
  let c := if d == .fill && hasFill then (c.1, c.2 + 1) else c
  if !(d == .fill || d == .remove) then (c.1 + 1, c.2) else c

/-- The same for all files of a file set, `/repo/dnstable/query.c:1971-1984`. -/
def countFiles (hasFill : Bool) (c : Nat × Nat) (ds : List (Fence × Src)) : Nat × Nat :=
  ds.foldl (fun c d => countFile hasFill c d.1) c

/-- What `query_iter_get_count` reads for an aggregated query over a file set whose files have the decisions `ds`,
`/repo/dnstable/query.c:2003-2037`. -/
def filesetStats (q : Query) (env : FsEnv) (F : Fenced) (ds : List (Fence × Src)) (p : Plan) (w : World) : IterStats :=
  let c := countFiles q.bounds.any (0, 0) ds
  iterStats q (filesetSources q.bounds env F) p c.1 c.2 w

/-- The counts of files of an unaggregated query: the reader filter is called for the files of both file sets, and
there is no fill merger; `/repo/dnstable/query.c:2020-2021,2034,2048-2051`. -/
def looseFileCounts (ds ds' : List (Fence × Src)) : Nat × Nat := countFiles false (countFiles false (0, 0) ds) ds'

end Verif
