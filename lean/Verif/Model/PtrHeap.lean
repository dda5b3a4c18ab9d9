import Verif.Model.Base

/-!
# The heap of pointers (`/repo/libmy/heap.c`)

The vector of pointers (`VECTOR_GENERATE(ptrvec, void *)`, line 23) is a list: that `vector.h` implements one is `Verif.Model.Vector`.
The comparison function of the caller is any function to the integers.  `cmp_wrapper` only returns 0 and 1, so the branches for -1
(lines 74, 99) are never taken and not transcribed.
-/

namespace Verif.PtrHeap

variable {α : Type}

/-- `cmp_wrapper`, `/repo/libmy/heap.c:30-34`. -/
def less (cmp : α → α → Int) (a b : α) : Bool := cmp a b < 0

/-- `ptrvec_value`, with its assertion (`/repo/libmy/vector.h:137-142`). -/
def value (v : List α) (i : Nat) : Out α :=
  match v[i]? with
  | some x => .ok x
  | none => .fault .abort

/-- `ptrvec_data(h->vec)[i] = x` (`/repo/libmy/heap.c:78,81,103,107,144,158`). -/
def poke (v : List α) (i : Nat) (x : α) : Out (List α) := if i < v.length then .ok (v.set i x) else .fault .oobWrite

/-- The loop of `siftdown` with the write after it, `/repo/libmy/heap.c:70-81`; the first argument bounds the number of rounds. -/
def siftdownLoop (cmp : α → α → Int) (startpos : Nat) (newitem : α) : Nat → List α → Nat → Out (List α)
  | 0, _, _ => .fault .diverge
  | fuel + 1, v, pos =>
    if pos > startpos then do
      let parentpos := (pos - 1) / 2
      let parent ← value v parentpos
      if less cmp newitem parent then
        let v ← poke v pos parent
        siftdownLoop cmp startpos newitem fuel v parentpos
      else poke v pos newitem
    else poke v pos newitem

/-- `siftdown`, `/repo/libmy/heap.c:65-83`. -/
def siftdown (cmp : α → α → Int) (v : List α) (startpos pos : Nat) : Out (List α) := do
  let newitem ← value v pos
  siftdownLoop cmp startpos newitem (pos + 1) v pos

/-- The loop of `siftup` with the write after it, `/repo/libmy/heap.c:92-107`: the vector and the position. -/
def siftupLoop (cmp : α → α → Int) (newitem : α) : Nat → List α → Nat → Out (List α × Nat)
  | 0, _, _ => .fault .diverge
  | fuel + 1, v, pos =>
    let childpos := 2 * pos + 1
    if childpos < v.length then do
      let rightpos := childpos + 1
      let childpos ←
        if rightpos < v.length then do
          let l ← value v childpos
          let r ← value v rightpos
          .ok (if less cmp l r then childpos else rightpos)
        else .ok childpos
      let c ← value v childpos
      let v ← poke v pos c
      siftupLoop cmp newitem fuel v childpos
    else do
      let v ← poke v pos newitem
      .ok (v, pos)

/-- `siftup`, `/repo/libmy/heap.c:85-110`. -/
def siftup (cmp : α → α → Int) (v : List α) (pos : Nat) : Out (List α) := do
  let newitem ← value v pos
  let r ← siftupLoop cmp newitem (v.length + 1) v pos
  siftdown cmp r.1 pos r.2

/-- The loop of `heap_heapify`, `/repo/libmy/heap.c:115-117`, from `i` downwards. -/
def heapifyLoop (cmp : α → α → Int) : Nat → List α → Out (List α)
  | 0, v => .ok v
  | i + 1, v => do
    let v ← siftup cmp v i
    heapifyLoop cmp i v

/-- `heap_heapify`, `/repo/libmy/heap.c:112-118`. -/
def heapify (cmp : α → α → Int) (v : List α) : Out (List α) := heapifyLoop cmp (v.length / 2) v

/-- `heap_push`, `/repo/libmy/heap.c:126-131`. -/
def push (cmp : α → α → Int) (v : List α) (x : α) : Out (List α) :=
  let v := v ++ [x]
  siftdown cmp v 0 (v.length - 1)

/-- `heap_pop`, `/repo/libmy/heap.c:133-149`: the item returned (NULL for none) and the vector. -/
def pop (cmp : α → α → Int) (v : List α) : Out (Option α × List α) :=
  if v.length < 1 then .ok (none, v)
  else do
    let lastelt ← value v (v.length - 1)
    let v := v.take (v.length - 1)
    if v.length > 0 then do
      let returnitem ← value v 0
      let v ← poke v 0 lastelt
      let v ← siftup cmp v 0
      .ok (some returnitem, v)
    else .ok (some lastelt, v)

/-- `heap_replace`, `/repo/libmy/heap.c:151-160`. -/
def replace (cmp : α → α → Int) (v : List α) (x : α) : Out (Option α × List α) :=
  if v.length < 1 then .ok (none, v)
  else do
    let returnitem ← value v 0
    let v ← poke v 0 x
    let v ← siftup cmp v 0
    .ok (some returnitem, v)

/-- `heap_peek`, `/repo/libmy/heap.c:162-168`. -/
def peek (v : List α) : Out (Option α) :=
  if v.length < 1 then .ok none
  else match v[0]? with
    | some x => .ok (some x)
    | none => .fault .oobRead

/-- `heap_get`, `/repo/libmy/heap.c:170-176`; `size - 1` wraps around. -/
def get (v : List α) (i : Nat) : Out (Option α) :=
  if i > (v.length + 2 ^ 64 - 1) % 2 ^ 64 then .ok none
  else do
    let x ← value v i
    .ok (some x)

/-- The functions of `/repo/libmy/heap.h:8-22` on an existing heap. -/
inductive Op (α : Type) where
  | push (x : α) | pop | replace (x : α) | peek | get (i : Nat) | size | reset | clip (n : Nat) | add (x : α) | heapify

/-- What such a call returns: nothing, a pointer (NULL for none), a number (`/repo/libmy/heap.h:8-22`). -/
inductive Ret (α : Type) where
  | unit | item (x : Option α) | num (n : Nat)
deriving DecidableEq

/-- One call (`/repo/libmy/heap.c:55-182`); `heap_reset` 55-58, `heap_clip` 60-63, `heap_add` 120-124, `heap_size` 178-182. -/
def call (cmp : α → α → Int) (v : List α) : Op α → Out (Ret α × List α)
  | .push x => do
    let v ← push cmp v x
    .ok (.unit, v)
  | .pop => do
    let r ← pop cmp v
    .ok (.item r.1, r.2)
  | .replace x => do
    let r ← replace cmp v x
    .ok (.item r.1, r.2)
  | .peek => do
    let r ← peek v
    .ok (.item r, v)
  | .get i => do
    let r ← get v i
    .ok (.item r, v)
  | .size => .ok (.num v.length, v)
  | .reset => .ok (.unit, [])
  | .clip n => .ok (.unit, if n < v.length then v.take n else v)
  | .add x => .ok (.unit, v ++ [x])
  | .heapify => do
    let v ← heapify cmp v
    .ok (.unit, v)

/-- A sequence of calls on a heap (`/repo/libmy/heap.h:7-22`): what they return. -/
def calls (cmp : α → α → Int) : List α → List (Op α) → Out (List (Ret α))
  | _, [] => .ok []
  | v, o :: os => do
    let r ← call cmp v o
    let rs ← calls cmp r.2 os
    .ok (r.1 :: rs)

end Verif.PtrHeap
