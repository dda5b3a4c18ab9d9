import Verif.Model.Stats
import Verif.Spec.Stats

/-!
# Specification: the counters callers can ask for

Written from the names in `/repo/dnstable/dnstable.h:69-87` and the manual page `dnstable_iter(3)`: a stage of a
query keeps some of four counters, and a question about any other is answered with `*exists` false.
-/

namespace Verif.Spec
open Verif

/-- The categories of `/repo/dnstable/dnstable.h:82-87`. -/
inductive Category where
  | filtered | merged | seek | files
deriving DecidableEq, Repr

/-- Their numbers, `/repo/dnstable/dnstable.h:82-87`. -/
def Category.no : Category → Nat
  | .filtered => 0 | .merged => 1 | .seek => 2 | .files => 3

/-- The counters each stage keeps: sources of rows merge rows from files; filters reject rows, and two of
them skip ahead; the removal rejects rows found in files of its own; the join merges. -/
def keeps : Stage → List Category
  | .fileset => [.merged, .files]
  | .filterSingleLabel => [.filtered, .seek]
  | .filterRrtype => [.filtered, .seek]
  | .filterBailiwick => [.filtered]
  | .filterTimePrefilter => [.filtered]
  | .removeStrict => [.filtered, .seek, .files]
  | .fillMerger => [.merged, .files]
  | .ljoin => [.merged, .seek]
  | .filterTime => [.filtered]
  | .filterOffset => [.filtered]

/-- The stages a query has: the source always, the second source if there is one, and every stage put on a
source or an index. -/
def HasStage (q : Query) (S : Sources) (p : Plan) (g : Stage) : Prop :=
  g = .fileset ∨ (g = .fillMerger ∧ S.fill ≠ none) ∨ ∃ o ∈ sourceOps q S p ++ indexOps q p, o.stage = some g

/-- What a stage has counted.  Files are counted when the query is set up: those of the source and of the
second source are given, the removal has one for each of its sources. -/
def stageCount (S : Sources) (files fillFiles : Nat) (w : World) (g : Stage) : Category → Nat
  | .filtered => (w.stats g).filtered
  | .merged => (w.stats g).merged
  | .seek => (w.stats g).seek
  | .files => if g = .fileset then files else if g = .fillMerger then fillFiles else (S.rm.getD []).length

end Verif.Spec
