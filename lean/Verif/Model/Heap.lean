import Verif.Model.Base

/-!
# The heap (`malloc`, `free`; `/repo/libmy/my_alloc.h`)

Blocks have numbers, which are never used again, and contents.  Memory does not run out: the functions of
`/repo/libmy/my_alloc.h:8-38` abort in that case.
-/

namespace Verif

/-- The live blocks, and the number of the next block.  (`malloc` as used in `/repo/libmy/my_alloc.h:16-22`.) -/
structure Heap where
  next : Nat := 0
  live : List (Nat × Bytes) := []
deriving DecidableEq, Repr

/-- A function that works on the heap.  (Glue of the model, no counterpart in `/repo/`.) -/
abbrev Mem := StateT Heap Out

/-- `my_malloc`, `my_calloc`, `my_strdup` (`/repo/libmy/my_alloc.h:8-38`): a new block with the given contents. -/
def mAlloc (b : Bytes) : Mem Nat := fun h => .ok (h.next, ⟨h.next + 1, (h.next, b) :: h.live⟩)

/-- `free`, in `my_free` (`/repo/libmy/my_alloc.h:40`), which then sets the pointer to NULL. -/
def mFree (p : Option Nat) : Mem Unit := fun h =>
  match p with
  | none => .ok ((), h)
  | some p =>
    if p ∈ h.live.map Prod.fst then .ok ((), { h with live := h.live.filter fun b => b.1 ≠ p })
    else .fault .badFree

/-- Reading a block, such as the string `dnstable_query_get_error` returns (`/repo/dnstable/query.c:189-195`). -/
def mLoad (p : Nat) : Mem Bytes := fun h =>
  match h.live.lookup p with
  | some b => .ok (b, h)
  | none => .fault .useAfterFree

/-- Access to an object, such as `q->q_type` (`/repo/dnstable/query.c:209`): it must be live. -/
def mTouch (p : Nat) : Mem Unit := do
  let _ ← mLoad p

/-- A computation that does not concern the heap.  (Glue of the model, no counterpart in `/repo/`.) -/
def mPure {α : Type} (x : Out α) : Mem α := fun h =>
  match x with
  | .ok a => .ok (a, h)
  | .fail => .fail
  | .fault f => .fault f

end Verif
