import Verif.Model.Base

/-!
# The queue of one producer and one consumer (`/repo/libmy/my_queue_mb.c`, `/repo/libmy/my_queue_mutex.c`)

`my_queue.c:17-33` chooses one of two implementations, with memory barriers or with a lock.  The functions with the lock are each
one step.  Those without are taken apart into their accesses to the shared memory, where `memcpy` copies one byte at a time, and the
steps of the two threads come in any order.  Memory is sequentially consistent: that the barriers (lines 104, 106, 124) are enough
for that on the machine at hand is not modelled, nor are the failures of allocation and of the lock, both of which end the program.
-/

namespace Verif.SpscQueue

/-- `struct my_queue`, `/repo/libmy/my_queue_mb.c:46-52`.  The data is a function of the place; there are `num * size` places. -/
structure Queue where
  data : Nat → UInt8
  num : Nat
  size : Nat
  head : Nat
  tail : Nat

/-- `my_queue_mb_init`, `/repo/libmy/my_queue_mb.c:54-65`, and `my_queue_mutex_init`, `/repo/libmy/my_queue_mutex.c:57-70`. -/
def init (num size : Nat) : Option Queue :=
  if num < 2 ∨ (num - 1) &&& num ≠ 0 then none else some ⟨fun _ => 0, num, size, 0, 0⟩

/-- Subtraction of `unsigned` numbers (`/repo/libmy/my_queue_mb.c:86,92`). -/
def sub32 (a b : Nat) : Nat := (a + 2 ^ 32 - b) % 2 ^ 32

/-- `q_space`, `/repo/libmy/my_queue_mb.c:83-87`, `/repo/libmy/my_queue_mutex.c:103-107`. -/
def space (head tail size : Nat) : Nat := sub32 tail ((head + 1) % 2 ^ 32) &&& (size - 1)

/-- `q_count`, `/repo/libmy/my_queue_mb.c:89-93`, `/repo/libmy/my_queue_mutex.c:109-113`. -/
def count (head tail size : Nat) : Nat := sub32 head tail &&& (size - 1)

/-- `(head + 1) & (q->num_elems - 1)`, `/repo/libmy/my_queue_mb.c:105,125`, `/repo/libmy/my_queue_mutex.c:125,145`. -/
def next (i num : Nat) : Nat := (i + 1) % 2 ^ 32 &&& (num - 1)

/-- The place of the first byte of an element, `head * q->sizeof_elem`, `/repo/libmy/my_queue_mb.c:103,123`: a product of `unsigned`
numbers. -/
def place (q : Queue) (i : Nat) : Nat := i * q.size % 2 ^ 32

/-- One byte copied into the queue (`memcpy`, `/repo/libmy/my_queue_mb.c:103`, `/repo/libmy/my_queue_mutex.c:124`). -/
def putByte (q : Queue) (item : Bytes) (head j : Nat) : Out Queue :=
  match item[j]? with
  | none => .fault .oobRead
  | some b =>
    let p := place q head + j
    if p < q.num * q.size then .ok { q with data := fun x => if x = p then b else q.data x } else .fault .oobWrite

/-- One byte copied out of the queue (`memcpy`, `/repo/libmy/my_queue_mb.c:123`, `/repo/libmy/my_queue_mutex.c:144`). -/
def getByte (q : Queue) (tail j : Nat) : Out UInt8 :=
  let p := place q tail + j
  if p < q.num * q.size then .ok (q.data p) else .fault .oobRead

/-- What a call returns: whether it succeeded, the item, and the number stored in `*pspace` or `*pcount`
(`/repo/libmy/my_queue_mb.c:110-112,129-131`). -/
inductive Ret where
  | inserted (item : Bytes) (space : Nat)
  | full (item : Bytes)
  | removed (item : Bytes) (count : Nat)
  | empty
  deriving DecidableEq

/-! ## With the lock -/

/-- `memcpy` into the queue, `/repo/libmy/my_queue_mutex.c:124`: the bytes from the `j`th on, `n` of them. -/
def putAll (item : Bytes) (head : Nat) : Nat → Nat → Queue → Out Queue
  | 0, _, q => .ok q
  | n + 1, j, q => do
    let q ← putByte q item head j
    putAll item head n (j + 1) q

/-- `memcpy` out of the queue, `/repo/libmy/my_queue_mutex.c:144`. -/
def getAll (q : Queue) (tail : Nat) : Nat → Nat → Out Bytes
  | 0, _ => .ok []
  | n + 1, j => do
    let b ← getByte q tail j
    let r ← getAll q tail n (j + 1)
    .ok (b :: r)

/-- `my_queue_mutex_insert`, `/repo/libmy/my_queue_mutex.c:115-133`. -/
def insert (q : Queue) (item : Bytes) : Out (Queue × Ret) :=
  let s := space q.head q.tail q.num
  if s ≥ 1 then do
    let q ← putAll item q.head q.size 0 q
    .ok ({ q with head := next q.head q.num }, .inserted item (s - 1))
  else .ok (q, .full item)

/-- `my_queue_mutex_remove`, `/repo/libmy/my_queue_mutex.c:135-153`. -/
def remove (q : Queue) : Out (Queue × Ret) :=
  let c := count q.head q.tail q.num
  if c ≥ 1 then do
    let item ← getAll q q.tail q.size 0
    .ok ({ q with tail := next q.tail q.num }, .removed item (c - 1))
  else .ok (q, .empty)

/-- A call, `some` to insert and `none` to remove (`/repo/libmy/my_queue_mutex.c:115-153`). -/
def call (q : Queue) : Option Bytes → Out (Queue × Ret)
  | some item => insert q item
  | none => remove q

/-- A sequence of calls, `some` to insert and `none` to remove (`/repo/libmy/my_queue_mutex.c:115-153`). -/
def calls : Queue → List (Option Bytes) → Out (Queue × List Ret)
  | q, [] => .ok (q, [])
  | q, c :: cs => do
    let (q, r) ← call q c
    let (q, rs) ← calls q cs
    .ok (q, r :: rs)

/-! ## With barriers -/

/-- Where the producer is in `my_queue_mb_insert`, `/repo/libmy/my_queue_mb.c:95-113`: in no call; after line 99; in or after the
`memcpy` of line 103, of which it has copied `done` bytes. -/
inductive Producer where
  | idle
  | loaded (item : Bytes) (head : Nat)
  | copying (item : Bytes) (head space done : Nat)

/-- Where the consumer is in `my_queue_mb_remove`, `/repo/libmy/my_queue_mb.c:115-132`: in no call; in or after the
`memcpy` of line 123, with the bytes copied. -/
inductive Consumer where
  | idle
  | copying (tail count : Nat) (item : Bytes)

/-- The queue and the two threads (`/repo/libmy/my_queue.h:9-13`). -/
structure State where
  q : Queue
  p : Producer
  c : Consumer

/-- One step of the producer, `/repo/libmy/my_queue_mb.c:95-113`; out of a call it begins one, to insert `item`. -/
def producerStep (s : State) (item : Bytes) : Out (State × Option Ret) :=
  match s.p with
  | .idle => .ok ({ s with p := .loaded item s.q.head }, none)
  | .loaded item head =>
    let sp := space head s.q.tail s.q.num
    if sp ≥ 1 then .ok ({ s with p := .copying item head sp 0 }, none) else .ok ({ s with p := .idle }, some (.full item))
  | .copying item head sp done =>
    if done < s.q.size then do
      let q ← putByte s.q item head done
      .ok ({ s with q := q, p := .copying item head sp (done + 1) }, none)
    else .ok ({ s with q := { s.q with head := next head s.q.num }, p := .idle }, some (.inserted item (sp - 1)))

/-- One step of the consumer, `/repo/libmy/my_queue_mb.c:115-132`; out of a call it begins one.  Lines 119
and 120 are one step, since only the consumer itself writes what line 120 reads. -/
def consumerStep (s : State) : Out (State × Option Ret) :=
  match s.c with
  | .idle =>
    let n := count s.q.head s.q.tail s.q.num
    if n ≥ 1 then .ok ({ s with c := .copying s.q.tail n [] }, none) else .ok ({ s with c := .idle }, some .empty)
  | .copying tail n item =>
    if item.length < s.q.size then do
      let b ← getByte s.q tail item.length
      .ok ({ s with c := .copying tail n (item ++ [b]) }, none)
    else .ok ({ s with q := { s.q with tail := next tail s.q.num }, c := .idle }, some (.removed item (n - 1)))

/-- A step of one of the threads, `some item` one of the producer and `none` one of the consumer
(`/repo/libmy/my_queue_mb.c:95-132`). -/
def step (s : State) : Option Bytes → Out (State × Option Ret)
  | some item => producerStep s item
  | none => consumerStep s

/-- Steps of the two threads, `some item` one of the producer and `none` one of the consumer, and what the calls returned, in the
order in which they did (`/repo/libmy/my_queue_mb.c:95-132`). -/
def run : State → List (Option Bytes) → Out (State × List Ret)
  | s, [] => .ok (s, [])
  | s, a :: as => do
    let (s, r) ← step s a
    let (s, rs) ← run s as
    .ok (s, r.toList ++ rs)

end Verif.SpscQueue
