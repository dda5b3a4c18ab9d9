import Verif.Model.Mtbl
import Verif.Model.Merge
import Verif.Spec.Tables

/-!
# The aggregated view of a set of files

`dnstable_reader_init_setfile` (`/repo/dnstable/reader.c:47-59`) and `dnstable_query_iter_fileset`
(`/repo/dnstable/query.c:2003-2058`) open the files as one mtbl fileset with `dnstable_merge_func`.
The merger itself is mtbl code outside `/repo`.  The contract modelled here: it holds one cursor per
file, takes a smallest head key, and folds the values of all heads with that key, from left to right,
with the merge function.  Which of several equal heads comes first depends on the shape of mtbl's heap;
the parameter `pick` stands for that choice.  The choice may depend on everything that is still unread,
which never repeats within a run, so every sequence of choices is some `pick`.
-/

namespace Verif
open Spec

/-- The head of cursor `i` is a smallest head (mtbl merger used by `/repo/dnstable/reader.c:54`). -/
def isMinHead (cs : List Table) (i : Nat) : Bool :=
  match cs[i]? with
  | some (kv :: _) => cs.all fun c => match c with
    | [] => true
    | x :: _ => lexLe kv.1 x.1
  | _ => false

/-- A cursor with a smallest head: the one picked, if it has one, else the first
(mtbl merger used by `/repo/dnstable/reader.c:54`). -/
def chooseMin (pick : List Table → Nat) (cs : List Table) : Option Nat :=
  if isMinHead cs (pick cs) then some (pick cs) else (List.range cs.length).find? (isMinHead cs)

/-- Take a smallest head (mtbl merger used by `/repo/dnstable/reader.c:54`). -/
def mergerPop (pick : List Table → Nat) (cs : List Table) : Option (KV × List Table) :=
  match chooseMin pick cs with
  | none => none
  | some i =>
    match cs[i]? with
    | some (kv :: r) => some (kv, cs.set i r)
    | _ => none

/-- Fold the values of the heads with key `k` into `v` (mtbl merger used by
`/repo/dnstable/reader.c:54`); `n` bounds the number of steps. -/
def mergerCollect (pick : List Table → Nat) (k : Bytes) : Nat → Bytes → List Table → Out (Bytes × List Table)
  | 0, _, _ => .fault .diverge
  | n + 1, v, cs =>
    match mergerPop pick cs with
    | none => .ok (v, cs)
    | some (kv, cs') =>
      if kv.1 = k then do
        let v' ← mergeFunc k v kv.2
        mergerCollect pick k n v' cs'
      else .ok (v, cs)

/-- All rows of the merged view (mtbl merger used by `/repo/dnstable/reader.c:54`), or how the iteration
breaks down if a call of the merge function does not deliver a value. -/
def mergerRows (pick : List Table → Nat) : Nat → List Table → Out Table
  | 0, _ => .fault .diverge
  | n + 1, cs =>
    match mergerPop pick cs with
    | none => .ok []
    | some (kv, cs') => do
      let (v, cs'') ← mergerCollect pick kv.1 (cs'.flatten.length + 1) kv.2 cs'
      let rest ← mergerRows pick n cs''
      .ok ((kv.1, v) :: rest)

/-- The aggregated view of files (`/repo/dnstable/reader.c:47-59`, `/repo/dnstable/query.c:2011-2034`). -/
def aggregated (pick : List Table → Nat) (files : List Table) : Out Table :=
  mergerRows pick (files.flatten.length + 1) files

end Verif
