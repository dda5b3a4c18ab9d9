import Verif.Model.Fileset
import Verif.Model.Dupsort

/-!
# Unaggregated queries over file sets (`/repo/dnstable/query.c:2039-2054`)

Without a merge function, the merger delivers the rows of all files, ordered by key, and rows of equal key
by the duplicate sort function.  The merger is mtbl code outside `/repo`.  The contract modelled here: it
holds one cursor per file and takes a head that is smallest by key and, among equal keys, by
`dnstable_dupsort_func`; the choice among heads that compare as equal is the parameter `pick`.  mtbl compares
heads as its heap demands; here a row is chosen only if it can be compared with all other heads.
-/

namespace Verif
open Spec

/-- The order of the heads of a merger with a duplicate sort function
(`mtbl_fileset_options_set_dupsort_func`, `/repo/dnstable/query.c:2050`). -/
def rowCmp (a b : KV) : Out Ordering :=
  if lexLt a.1 b.1 then .ok .lt
  else if lexLt b.1 a.1 then .ok .gt
  else dupsortFunc a.1 a.2 b.2

/-- `a` may come before `b` (`/repo/dnstable/query.c:2050`). -/
def rowLe (a b : KV) : Bool :=
  match rowCmp a b with
  | .ok .gt => false
  | .ok _ => true
  | _ => false

/-- The head of cursor `i` may come before all other heads (mtbl merger used by `/repo/dnstable/query.c:2051`). -/
def isFirstRow (cs : List Table) (i : Nat) : Bool :=
  match cs[i]? with
  | some (kv :: _) => cs.all fun c => match c with
    | [] => true
    | x :: _ => rowLe kv x
  | _ => false

/-- A cursor whose head may come first: the one picked, if its head may, else the first such
(mtbl merger used by `/repo/dnstable/query.c:2051`). -/
def chooseFirst (pick : List Table → Nat) (cs : List Table) : Option Nat :=
  if isFirstRow cs (pick cs) then some (pick cs) else (List.range cs.length).find? (isFirstRow cs)

/-- All rows of the files in the merger's order (mtbl merger used by `/repo/dnstable/query.c:2051`); aborts if heads
cannot be compared (assertions in `/repo/dnstable/query.c:1838-1869`); `n` bounds the number of steps. -/
def interleave (pick : List Table → Nat) : Nat → List Table → Out Table
  | 0, _ => .fault .diverge
  | n + 1, cs =>
    if cs.flatten.isEmpty then .ok []
    else
      match chooseFirst pick cs with
      | none => .fault .abort
      | some i =>
        match cs[i]? with
        | some (kv :: r) => do
          let rest ← interleave pick n (cs.set i r)
          .ok (kv :: rest)
        | _ => .fault .abort

/-- The unaggregated view of files (`it->fs_no_merge`, `/repo/dnstable/query.c:2048-2054`). -/
def unaggregated (pick : List Table → Nat) (files : List Table) : Out Table :=
  interleave pick (files.flatten.length + 1) files

/-- The contents of the two file sets of an unaggregated query (`it->fs_filter`, `it->fs_no_merge`,
`/repo/dnstable/query.c:84-91`). -/
structure Loose where
  index : Table
  rows : Table

/-- The file sets of `dnstable_query_iter_fileset`, `/repo/dnstable/query.c:2003-2058`, for an unaggregated query.
The reader filter is called for every file of both sets, at times `w` and `w'`; there are no fill and
removal sources (`/repo/dnstable/query.c:2020-2033`, `1971-1980`).  `env.pickFill` chooses among rows of the second set. -/
def looseFiles (b : Bounds) (env : FsEnv) (w w' : World) (files : List Src) : Out Loose := do
  let ds ← fenceAll b w files
  let index ← aggregated env.pickKept ((chosen .keep ds).map (·.rows))
  let ds' ← fenceAll b w' files
  let rows ← unaggregated env.pickFill ((chosen .keep ds').map (·.rows))
  .ok { index := index, rows := rows }

/-- The sources of an unaggregated query, `/repo/dnstable/query.c:2035-2054`: results come from the second file set,
index entries from the first. -/
def looseSources (env : FsEnv) (F : Loose) : Sources :=
  { source := curM F.rows env.seekKept, index := curM F.index env.seekIndex }

/-- The file sets of either kind of query (`struct query_iter`, `/repo/dnstable/query.c:84-91`). -/
inductive FsOpened where
  | merged (F : Fenced)
  | loose (F : Loose)

/-- The file sets `dnstable_query_iter_fileset` opens, `/repo/dnstable/query.c:2003-2054`. -/
def openFileset (q : Query) (env : FsEnv) (w w' : World) (files : List Src) : Out FsOpened :=
  if q.aggregated then do
    let F ← fencedFiles q.bounds env w files
    .ok (.merged F)
  else do
    let F ← looseFiles q.bounds env w w' files
    .ok (.loose F)

/-- The sources it goes on with (`/repo/dnstable/query.c:2035-2057`). -/
def FsOpened.sources (q : Query) (env : FsEnv) : FsOpened → Sources
  | .merged F => filesetSources q.bounds env F
  | .loose F => looseSources env F

end Verif
