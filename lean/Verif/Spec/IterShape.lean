import Verif.Spec.Stats
import Verif.Model.IterMem

/-!
# Specification: the iterator in memory is the one the query asks for

`Verif.Model.IterMem` keeps track of blocks only.  The stages it puts on a source have to be those which the
rest of the model takes the source to have.
-/

namespace Verif.Spec
open Verif

/-- What a source consists of: blocks of mtbl's, and stages.  A removal has the files to remove, a join the blocks
needed by its right hand side. -/
inductive Layer where
  | base (blocks : List Nat)
  | timeout | filter
  | remove (files : List Nat)
  | ljoin (right : List Nat)
deriving DecidableEq, Repr

/-- The blocks that the sources of a query need: source, index, the files to remove, the right hand side of a join. -/
structure Blockset where
  source : List Nat
  index : List Nat
  remove : List Nat := []
  right : List Nat := []

/-- The stage in memory of a stage. -/
def PipeOp.layer (B : Blockset) : PipeOp → Layer
  | .timeout => .timeout
  | .filter _ _ => .filter
  | .offset => .filter
  | .remove _ => .remove B.remove
  | .ljoin _ => .ljoin B.right

/-- The parts of a source in memory, the first one innermost. -/
def layers : SrcMem → List Layer
  | .base needs => [.base needs]
  | .filter _ _ _ up => layers up ++ [.filter]
  | .timeout _ _ _ up => layers up ++ [.timeout]
  | .ljoin _ _ left right => layers left ++ [.ljoin right]
  | .remove _ _ _ rm up => layers up ++ [.remove rm]

/-- The lengths of the key and, for a range, the second key a view is opened with. -/
def viewLengths : View → Nat × Nat
  | .pfx k => (k.length, 0)
  | .range k k2 => (k.length, k2.length)
  | .exact k => (k.length, 0)
  | .all => (0, 0)

/-- The stages that are filters, in the order of `/repo/dnstable/query.c:102-116`. -/
def filterStages : List Stage :=
  [.filterSingleLabel, .filterRrtype, .filterBailiwick, .filterTimePrefilter, .filterTime, .filterOffset]

/-- The iterator in memory has the stages, the keys and the kind of iteration of the query's plan on sources with
or without removal and join. -/
structure Embodies (q : Query) (S : Sources) (B : Blockset) (p : Plan) (it : QIterMem) : Prop where
  source : layers it.source = .base B.source :: (sourceOps q S p).map (PipeOp.layer B)
  index : layers it.index = .base B.index :: (indexOps q p).map (PipeOp.layer B)
  filters : ∀ g, (it.filters g).isSome = true ↔ g ∈ filterStages ∧ ∃ o ∈ sourceOps q S p ++ indexOps q p, o.stage = some g
  keys : (it.keyLen, it.key2Len) = viewLengths p.view
  indirect : it.indirect = p.indirect.isSome

/-- The entry a search comes to: the first one that can be decoded. -/
def firstEntry : List QAct → Option Entry
  | [] => none
  | .deliver key val :: as => match entryDecode key val with | .ok e => some e | _ => firstEntry as
  | _ :: as => firstEntry as

/-- What is to be done with a file: what its time range tells; without one it is kept. -/
def verdict (b : Bounds) (f : FileMem) : Fence :=
  match firstEntry f.acts with
  | none => .keep
  | some e => match e.getTimeFirst, e.getTimeLast with
    | .ok minFirst, .ok maxLast => fenceTimes b minFirst maxLast
    | _, _ => .keep

/-- The blocks of the files with a verdict. -/
def withVerdict (b : Bounds) (d : Fence) (files : List FileMem) : List Nat :=
  (files.filter fun f => verdict b f == d).map (·.block)

end Verif.Spec
