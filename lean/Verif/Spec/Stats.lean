import Verif.Model.Query

/-!
# Specification: accounting for rows

A source is observed through any history of calls on any number of its iterators.
-/

namespace Verif.Spec
open Verif

/-- One row or none. -/
def Res.rows : Res → Nat
  | .item _ => 1
  | _ => 0

/-- A source which also records, per iterator, how many rows it has handed out, and how many calls ended
without a row. -/
def tapM (M : Mach) : Mach where
  St := M.St × Nat × Nat
  start V := (M.start V, 0, 0)
  next s w :=
    let r := M.next s.1 w
    (r.1, (r.2.1, s.2.1 + Res.rows r.1, s.2.2 + (1 - Res.rows r.1)), r.2.2)
  seek s k w := ((M.seek s.1 k w).1, ((M.seek s.1 k w).2.1, s.2), (M.seek s.1 k w).2.2)
  size s := M.size s.1

/-- The kinds of stages a query can put on a source. -/
inductive PipeOp where
  | timeout
  | filter (g : Stage) (f : KV → Verdict)
  | offset
  | remove (rms : List Src)
  | ljoin (R : Src)

/-- The source with the stage on it. -/
def PipeOp.on : PipeOp → Mach → Mach
  | .timeout, M => timeoutM M
  | .filter g f, M => filterM g (pureF f) M
  | .offset, M => filterM .filterOffset filterOffset M
  | .remove rms, M => removeM rms M
  | .ljoin R, M => ljoinM mergeFunc M R.mach

/-- The stage whose counters it keeps. -/
def PipeOp.stage : PipeOp → Option Stage
  | .timeout => none
  | .filter g _ => some g
  | .offset => some .filterOffset
  | .remove _ => some .removeStrict
  | .ljoin _ => some .ljoin

/-- The rows the stage has counted as rejected (a join rejects none). -/
def PipeOp.rejected : PipeOp → World → Nat
  | .timeout, _ => 0
  | .filter g _, w => (w.stats g).filtered
  | .offset, w => (w.stats .filterOffset).filtered
  | .remove _, w => (w.stats .removeStrict).filtered
  | .ljoin _, _ => 0

/-- A stage that never ends the iteration over a row: a filter that only passes or drops rows, the
offset, the removal. -/
def PipeOp.clean : PipeOp → Prop
  | .timeout => True
  | .filter _ f => ∀ kv, f kv = .pass ∨ f kv = .drop
  | .offset => True
  | .remove _ => True
  | .ljoin _ => False

/-- Stages put on a source, the first one innermost. -/
def pipe : List PipeOp → Mach → Mach
  | [], M => M
  | o :: os, M => pipe os (o.on M)

/-- The iterator of the source under a stage. -/
def PipeOp.under : (o : PipeOp) → (M : Mach) → (o.on M).St → M.St
  | .timeout, _, s => s
  | .filter _ _, _, s => s
  | .offset, _, s => s
  | .remove _, _, s => s.up
  | .ljoin _, _, s => s.left

/-- The iterator of the source under all stages. -/
def under : (os : List PipeOp) → (M : Mach) → (pipe os M).St → M.St
  | [], _, s => s
  | o :: os, M, s => o.under M (under os (o.on M) s)

/-- The stage `o` among others, observed where its rows come from and where they go. -/
def observed (before : List PipeOp) (o : PipeOp) (after : List PipeOp) (M : Mach) : Mach :=
  pipe after (tapM (o.on (tapM (pipe before M))))

/-- Rows the iterator's stage `o` has handed on. -/
def rowsPassed {before : List PipeOp} {o : PipeOp} {after : List PipeOp} {M : Mach}
    (s : (observed before o after M).St) : Nat :=
  (under after (tapM (o.on (tapM (pipe before M)))) s).2.1

/-- Calls of the iterator's stage `o` that ended without a row. -/
def callsEnded {before : List PipeOp} {o : PipeOp} {after : List PipeOp} {M : Mach}
    (s : (observed before o after M).St) : Nat :=
  (under after (tapM (o.on (tapM (pipe before M)))) s).2.2

/-- Rows the iterator's stage `o` has taken. -/
def rowsTaken {before : List PipeOp} {o : PipeOp} {after : List PipeOp} {M : Mach}
    (s : (observed before o after M).St) : Nat :=
  (o.under (tapM (pipe before M)) (under after (tapM (o.on (tapM (pipe before M)))) s).1).2.1

/-- What happens to a source whose stage `g` is watched: an iterator is opened, one is stepped or moved,
or anything else happens that is no business of that stage (timers, the clock, other stages and
sources). -/
inductive Event where
  | openIter (V : View)
  | next (i : Nat)
  | seek (i : Nat) (k : Bytes)
  | outside (w : World)

/-- The iterators opened so far, the state of the rest of the world, the number of rows handed out, and
the number of calls that ended without a row. -/
structure Hist (M : Mach) where
  its : List M.St
  world : World
  rows : Nat
  ends : Nat

/-- One more event. -/
def Hist.step (g : Stage) {M : Mach} (h : Hist M) : Event → Hist M
  | .openIter V => { h with its := h.its ++ [M.start V] }
  | .next i =>
    match h.its[i]? with
    | none => h
    | some s =>
      let r := M.next s h.world
      { its := h.its.set i r.2.1, world := r.2.2, rows := h.rows + Res.rows r.1,
        ends := h.ends + (1 - Res.rows r.1) }
  | .seek i k =>
    match h.its[i]? with
    | none => h
    | some s =>
      let r := M.seek s k h.world
      { h with its := h.its.set i r.2.1, world := r.2.2 }
  | .outside w =>
    { h with world := { w with
        stats := fun x => if x = g then h.world.stats x else w.stats x
        offset := if g = .filterOffset then h.world.offset else w.offset } }

/-- The history of a new source. -/
def history (g : Stage) (M : Mach) (w : World) (ops : List Event) : Hist M := ops.foldl (Hist.step g) ⟨[], w, 0, 0⟩

/-- A count over all iterators of a source. -/
def total {St : Type} (f : St → Nat) (its : List St) : Nat := (its.map f).sum

/-- The counters of a stage are the same (and for the offset stage, the remaining offset). -/
def Untouched (g : Stage) (w w' : World) : Prop :=
  w'.stats g = w.stats g ∧ (g = .filterOffset → w'.offset = w.offset)

/-- A source which does not change the counters of a stage: any reader or merger of files. -/
structure Leaves (g : Stage) (M : Mach) : Prop where
  next : ∀ s w, Untouched g w (M.next s w).2.2
  seek : ∀ s k w, Untouched g w (M.seek s k w).2.2

/-- The stages put on the main source of a query. -/
def sourceOps (q : Query) (S : Sources) (p : Plan) : List PipeOp :=
  (if q.lim.active then [.timeout] else []) ++ p.onSource.map (fun f => .filter f.1 f.2) ++
    (if q.bounds.any then [.filter .filterTimePrefilter (filterTime q.bounds true)] ++
      (match S.rm with | some l => [.remove l] | none => []) else []) ++
    (match S.fill with | some R => [.ljoin R] | none => []) ++
    (if q.bounds.any then [.filter .filterTime (filterTime q.bounds false)] else []) ++
    (if q.offset > 0 then [.offset] else [])

/-- The stages put on the index of a query. -/
def indexOps (q : Query) (p : Plan) : List PipeOp :=
  (if q.lim.active then [.timeout] else []) ++ p.onIndex.map fun f => .filter f.1 f.2

end Verif.Spec
