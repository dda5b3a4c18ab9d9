import Verif.Model.IterMem

/-!
# Readers in memory (`/repo/dnstable/reader.c`), and programs that use the library

Objects of mtbl are one block each, as in `Verif.Model.IterMem`.
-/

namespace Verif

/-- `struct dnstable_reader`, `/repo/dnstable/reader.c:24-27`: its block, what the given source needs (NULL in readers of
set files), and the file set. -/
structure ReaderMem where
  self : Nat
  source : Option (List Nat)
  fs : Option Nat
deriving DecidableEq, Repr

/-- `dnstable_reader_init`, `/repo/dnstable/reader.c:38-45`; the source is not NULL. -/
def readerInitMem (source : List Nat) : Mem ReaderMem := do
  let p ← mAlloc []
  pure ⟨p, some source, none⟩

/-- `dnstable_reader_init_setfile`, `/repo/dnstable/reader.c:47-59`; the name is not NULL. -/
def readerInitSetfileMem : Mem ReaderMem := do
  let p ← mAlloc []
  let fopt ← mAlloc []
  mTouch fopt
  let fs ← mAlloc []
  mFree (some fopt)
  pure ⟨p, none, some fs⟩

/-- `dnstable_reader_reload_setfile`, `/repo/dnstable/reader.c:61-66`. -/
def readerReloadMem (r : ReaderMem) : Mem Unit := do
  mTouch r.self
  match r.fs with
  | some fs => mTouch fs
  | none => pure ()

/-- `dnstable_reader_destroy`, `/repo/dnstable/reader.c:68-75`; `none` is a NULL pointer, as which the caller's pointer is
left. -/
def readerDestroyMem : Option ReaderMem → Mem (Option ReaderMem)
  | none => pure none
  | some r => do
    mTouch r.self
    mFree r.fs
    mFree (some r.self)
    pure none

/-- `struct dnstable_iter` (`/repo/dnstable/iter.c:20-25`) of a query, or of a reader: then `outer` with the
`struct reader_iter` `self` and its `m_it` (`/repo/dnstable/reader.c:20-22`). -/
inductive AnyIter where
  | query (d : DIterMem)
  | reader (outer self : Nat) (it : IterMem)

/-- `dnstable_reader_iter` and `reader_iter_prefix`, `/repo/dnstable/reader.c:77-83,143-150`.  A reader of a set file has no
source. -/
def readerIterMem (opens : Heap → Bool) (r : ReaderMem) : Mem AnyIter := do
  let p ← mAlloc []
  mTouch r.self
  match r.source with
  | none => mPure (.fault .nullDeref)
  | some needs => do
    let it ← openBaseMem opens needs
    let d ← mAlloc []
    pure (.reader d p it)

/-- `dnstable_reader_query`, `/repo/dnstable/reader.c:127-138`. -/
def readerQueryMem (opens : Heap → Bool) (r : ReaderMem) (m : QueryMem) (files : List FileMem) :
    Mem (Option AnyIter) := do
  mTouch r.self
  match r.fs, r.source with
  | some fs, _ => do
    let d ← queryIterFilesetMem opens m fs files
    pure (d.map .query)
  | none, some needs => do
    let d ← queryIterMem opens m needs
    pure (d.map .query)
  | none, none => mPure (.fault .nullDeref)

/-- The loop of `reader_iter_next`, `/repo/dnstable/reader.c:159-174`: the items of `m_it` are decoded until there is an
entry.  (`mtbl_iter_next` of NULL gives nothing.) -/
def readerStepsMem (opens : Heap → Bool) (self : Nat) (it : IterMem) : List KV → Mem (IterMem × Option EntryMem)
  | [] => do
    mTouch self
    let it ← actMem opens it .self
    pure (it, none)
  | kv :: kvs => do
    mTouch self
    let it ← actMem opens it .self
    if it.isNull then pure (it, none)
    else do
      let e ← entryDecodeMem kv.1 kv.2
      match e with
      | some e => pure (it, some e)
      | none => readerStepsMem opens self it kvs

/-- What happens during a call of `dnstable_iter_next` (`/repo/dnstable/iter.c:58-64`): the steps of a query's iterator,
the items of a reader's. -/
structure Course where
  steps : List QAct
  items : List KV

/-- `dnstable_iter_next`, `/repo/dnstable/iter.c:58-64`; it fails for NULL. -/
def anyNextMem (opens : Heap → Bool) (c : Course) : Option AnyIter → Mem (Option AnyIter × Option EntryMem)
  | none => pure (none, none)
  | some (.query d) => do
    let (d, e) ← iterNextMem opens d c.steps
    pure (some (.query d), e)
  | some (.reader outer self it) => do
    mTouch outer
    let (it, e) ← readerStepsMem opens self it c.items
    pure (some (.reader outer self it), e)

/-- `dnstable_iter_destroy`, `/repo/dnstable/iter.c:40-48`, with `query_iter_free` or `reader_iter_free`
(`/repo/dnstable/reader.c:152-158`). -/
def anyDestroyMem : Option AnyIter → Mem (Option AnyIter)
  | none => pure none
  | some (.query d) => do
    let _ ← iterDestroyMem (some d)
    pure none
  | some (.reader outer self it) => do
    touchAllMem [outer, self]
    destroyIterMem it
    mFree (some self)
    mFree (some outer)
    pure none

/-- The objects in which `query_iter_get_count` finds its numbers, `/repo/dnstable/query.c:1023-1076`. -/
def QIterMem.counted (it : QIterMem) : List Nat :=
  let stage := fun (s : Option StageMem) => (s.map StageMem.obj).toList
  stage (it.filters .filterSingleLabel) ++ stage (it.filters .filterRrtype) ++ stage (it.filters .filterBailiwick) ++
    stage (it.filters .filterTimePrefilter) ++ (it.removeStrict.map RemoveMem.obj).toList ++ stage it.ljoin ++
    stage (it.filters .filterTime) ++ stage (it.filters .filterOffset)

/-- `dnstable_iter_get_count`, `/repo/dnstable/iter.c:66-78`, with `query_iter_get_count` for any stage; iterators of readers
count nothing, and it fails for NULL. -/
def anyCountMem : Option AnyIter → Mem Unit
  | none => pure ()
  | some (.query d) => touchAllMem (d.self :: d.it.self :: d.it.counted)
  | some (.reader outer _ _) => mTouch outer

/-- The blocks of a vector.  (`/repo/libmy/vector.h:22-26`.) -/
def vecBlocks : Option VecMem → List Nat
  | none => []
  | some v => [v.self, v.arr]

/-- The accessors and output functions of entries (`/repo/dnstable/entry.c:24-605,878-1249`), which read its blocks. -/
def entryReadMem (m : EntryMem) : Mem Unit :=
  touchAllMem (m.self :: m.vec.self :: m.vec.arr :: (m.rdatas ++ m.name.toList ++ m.bailiwick.toList ++
    vecBlocks m.rrtypeMap ++ vecBlocks m.sourceInfo))

/-! ## Programs -/

/-- A call of the library by a program, on its pointers, which are numbered in the order of their creation
(`/repo/dnstable/dnstable.h`, `/repo/dnstable/query.c:161-514`, `/repo/dnstable/reader.c`, `/repo/dnstable/iter.c`,
`/repo/dnstable/entry.c`).  What mtbl does and what is in the files is part of the call. -/
inductive Op where
  | newQuery (t : QType)
  | call (q : Nat) (c : QueryCall)
  | destroyQuery (q : Nat)
  | newReader (source : List Nat)
  | newSetfile
  | reload (r : Nat)
  | destroyReader (r : Nat)
  | iterate (r : Nat) (opens : Heap → Bool)
  | query (r q : Nat) (opens : Heap → Bool) (files : List FileMem)
  | next (i : Nat) (opens : Heap → Bool) (c : Course)
  | count (i : Nat)
  | destroyIter (i : Nat)
  | read (e : Nat)
  | destroyEntry (e : Nat)

/-- An iterator of a program: the pointer, the reader it was made from, and the query if any.
(Glue of the model; `/repo/dnstable/reader.c:77-150`.) -/
structure Tracked where
  ptr : Option AnyIter
  reader : Nat
  query : Option Nat

/-- The pointers of a program.  (Glue of the model; the types are those of `/repo/dnstable/dnstable.h`.) -/
structure Session where
  queries : List (Option QueryMem) := []
  readers : List (Option ReaderMem) := []
  iters : List Tracked := []
  entries : List (Option EntryMem) := []

/-- The pointer with a number, NULL if there is none.  (Glue of the model, no counterpart in `/repo/`.) -/
def pointer {α : Type} (l : List (Option α)) (i : Nat) : Option α := (l[i]?).join

/-- A call: the pointers afterwards (see `Op` for the places in `/repo/`).  Calls that must not be made with a NULL
pointer dereference it. -/
def opMem (A : Arith) (L : Libs) (s : Session) : Op → Mem Session
  | .newQuery t => do
    let m ← queryInitMem t
    pure { s with queries := s.queries ++ [some m] }
  | .call q c =>
    match pointer s.queries q with
    | none => mPure (.fault .nullDeref)
    | some m => do
      let (m, _) ← queryCallsMem A L m [c]
      pure { s with queries := s.queries.set q (some m) }
  | .destroyQuery q => do
    let m ← queryDestroyMem (pointer s.queries q)
    pure { s with queries := s.queries.set q m }
  | .newReader source => do
    let r ← readerInitMem source
    pure { s with readers := s.readers ++ [some r] }
  | .newSetfile => do
    let r ← readerInitSetfileMem
    pure { s with readers := s.readers ++ [some r] }
  | .reload r =>
    match pointer s.readers r with
    | none => mPure (.fault .nullDeref)
    | some m => do
      readerReloadMem m
      pure s
  | .destroyReader r => do
    let m ← readerDestroyMem (pointer s.readers r)
    pure { s with readers := s.readers.set r m }
  | .iterate r opens =>
    match pointer s.readers r with
    | none => mPure (.fault .nullDeref)
    | some m => do
      let it ← readerIterMem opens m
      pure { s with iters := s.iters ++ [⟨some it, r, none⟩] }
  | .query r q opens files =>
    match pointer s.readers r, pointer s.queries q with
    | some m, some n => do
      let it ← readerQueryMem opens m n files
      pure { s with iters := s.iters ++ [⟨it, r, some q⟩] }
    | _, _ => mPure (.fault .nullDeref)
  | .next i opens c =>
    match s.iters[i]? with
    | none => pure s
    | some t => do
      let (p, e) ← anyNextMem opens c t.ptr
      pure { s with iters := s.iters.set i { t with ptr := p }, entries := s.entries ++ [e] }
  | .count i =>
    match s.iters[i]? with
    | none => pure s
    | some t => do
      anyCountMem t.ptr
      pure s
  | .destroyIter i =>
    match s.iters[i]? with
    | none => pure s
    | some t => do
      let p ← anyDestroyMem t.ptr
      pure { s with iters := s.iters.set i { t with ptr := p } }
  | .read e =>
    match pointer s.entries e with
    | none => mPure (.fault .nullDeref)
    | some m => do
      entryReadMem m
      pure s
  | .destroyEntry e => do
    let m ← entryDestroyMem (pointer s.entries e)
    pure { s with entries := s.entries.set e m }

/-- A program: those of its calls that keep to a rule are made.  (Glue of the model, no counterpart in `/repo/`; see `Op`.) -/
def programMem (A : Arith) (L : Libs) (rule : Session → Op → Bool) : Session → List Op → Mem Session
  | s, [] => pure s
  | s, o :: os =>
    if rule s o then do
      let s ← opMem A L s o
      programMem A L rule s os
    else programMem A L rule s os

end Verif
