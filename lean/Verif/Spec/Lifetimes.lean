import Verif.Model.ReaderMem

/-!
# Specification: how programs may use objects

dnstable_reader(3): the query "must not be destroyed until after the iterator is destroyed".  Functions other than the
destructors, `dnstable_iter_next` and `dnstable_iter_get_count` are not called with NULL.
-/

namespace Verif.Spec

/-- The pointer is not NULL. -/
def live {α : Type} (l : List (Option α)) (i : Nat) : Bool := (pointer l i).isSome

/-- An iterator made from the query is left. -/
def queryInUse (s : Session) (q : Nat) : Bool := s.iters.any fun t => t.ptr.isSome && t.query == some q

/-- An iterator made from the reader of a set file is left. -/
def setfileInUse (s : Session) (r : Nat) : Bool :=
  match pointer s.readers r with
  | none => false
  | some m => m.fs.isSome && s.iters.any fun t => t.ptr.isSome && t.reader == r

/-- The rules: no NULL pointers, except where allowed; a query, and the reader of a set file, is destroyed after its
iterators; given sources and the files of set files are among the blocks `ext`, which the program keeps all the time. -/
def allowed (ext : List Nat) (s : Session) : Op → Bool
  | .call q _ => live s.queries q
  | .destroyQuery q => !queryInUse s q
  | .newReader source => source.all ext.contains
  | .reload r => live s.readers r
  | .destroyReader r => !setfileInUse s r
  | .iterate r _ => live s.readers r
  | .query r q _ files => live s.readers r && live s.queries q && files.all fun f => ext.contains f.block
  | .read e => live s.entries e
  | _ => true

/-- The query is made with a removal stage: aggregated, with a strict time bound, on a set file. -/
def removal (s : Session) : Op → Bool
  | .query r q _ _ =>
    match pointer s.readers r, pointer s.queries q with
    | some m, some n =>
      m.fs.isSome && n.q.aggregated && (n.q.bounds.firstAfter.isSome || n.q.bounds.lastBefore.isSome)
    | _, _ => false
  | _ => false

/-- The end of a program: everything that is left is destroyed, iterators before queries and readers. -/
def cleanup (s : Session) : List Op :=
  (List.range s.iters.length).map .destroyIter ++ (List.range s.queries.length).map .destroyQuery ++
    (List.range s.readers.length).map .destroyReader ++ (List.range s.entries.length).map .destroyEntry

/-- No pointer is left. -/
def AllNull (s : Session) : Prop :=
  (∀ t ∈ s.iters, t.ptr = none) ∧ (∀ q ∈ s.queries, q = none) ∧ (∀ r ∈ s.readers, r = none) ∧ ∀ e ∈ s.entries, e = none

/-- The blocks of an entry hold its data. -/
def Intact (m : EntryMem) (h : Heap) : Prop :=
  m.rdatas.length = m.e.rdatas.length ∧
  (∀ b ∈ m.rdatas.zip m.e.rdatas, mLoad b.1 h = .ok (b.2, h)) ∧
  (∀ p, m.name = some p → mLoad p h = .ok (m.e.name, h)) ∧
  ∀ p, m.bailiwick = some p → mLoad p h = .ok (m.e.bailiwick, h)

/-- Shifts have a result or are undefined. -/
def RealShifts (A : Arith) : Prop :=
  (∀ v s, A.shlInt v s = .fault .badShift ∨ ∃ x, A.shlInt v s = .ok x) ∧
  ∀ v s, A.shl64 v s = .fault .badShift ∨ ∃ x, A.shl64 v s = .ok x

end Verif.Spec
