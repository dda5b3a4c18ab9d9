import Verif.Lemmas.SpscQueue

/-!
# C71: the queue of one producer and one consumer
-/

namespace Verif.Props

open Verif.Spec Verif.SpscQueue

/-- A queue is made for a power of two that is at least two, and for nothing else. -/
theorem C71_init (num size : Nat) : (SpscQueue.init num size).isSome = true ↔ ∃ k, 1 ≤ k ∧ num = 2 ^ k := by
  rw [init_iff]
  constructor
  · rintro ⟨h2, k, rfl⟩
    refine ⟨k, ?_, rfl⟩
    cases k with
    | zero => simp at h2
    | succ k => omega
  · rintro ⟨k, hk, rfl⟩
    refine ⟨?_, k, rfl⟩
    have := Nat.pow_le_pow_right (n := 2) (by omega) hk
    omega

example : (SpscQueue.init 8 3).isSome = true ∧ (SpscQueue.init 6 3).isSome = false := by decide +kernel

/-- Calls under the lock, in any order, are those of a sequence of items for which there are `num - 1` places: each returns what it
should, with the right number, and none reads or writes outside of the data.  Missing: queues of more than `2 ^ 32` bytes, for which
it is false. -/
theorem C71_locked_partial {num size : Nat} {q : Queue} (hq : SpscQueue.init num size = some q) (hn : num < 2 ^ 32)
    (hf : num * size ≤ 2 ^ 32) (cs : List (Option Bytes)) (hc : ∀ x, some x ∈ cs → x.length = size) :
    ∃ q' rs l, SpscQueue.calls q cs = .ok (q', rs) ∧ QueueSeq (QueueCall (num - 1)) [] rs l ∧ rs.length = cs.length ∧
      ∀ i, i < cs.length → (∀ x, cs[i]? = some (some x) → rs[i]? = some (.full x) ∨ ∃ n, rs[i]? = some (.inserted x n)) ∧
        (cs[i]? = some none → rs[i]? = some .empty ∨ ∃ x n, rs[i]? = some (.removed x n)) := by
  have h := Has.start hq hn hf
  obtain ⟨_, _, rfl⟩ := init_some hq
  exact calls_spec cs _ [] h hc

/-- The steps of the two threads may come in any order: the calls return, in this order, what calls on a sequence of items return, and
none reads or writes outside of the data.  Missing: queues of more than `2 ^ 32` bytes. -/
theorem C71_threads_partial {num size : Nat} {q : Queue} (hq : SpscQueue.init num size = some q) (hn : num < 2 ^ 32)
    (hf : num * size ≤ 2 ^ 32) (as : List (Option Bytes)) (ha : ∀ x, some x ∈ as → x.length = size) :
    ∃ s rs l, SpscQueue.run ⟨q, .idle, .idle⟩ as = .ok (s, rs) ∧ QueueSeq (QueueTurn (num - 1)) [] rs l := by
  have h := Has.start hq hn hf
  obtain ⟨_, _, rfl⟩ := init_some hq
  obtain ⟨s, rs, l, e, hs, _⟩ := run_spec as ⟨⟨fun _ => 0, num, size, 0, 0⟩, .idle, .idle⟩ [] ⟨h, trivial, trivial⟩ ha
  exact ⟨s, rs, l, e, hs⟩

/-- So nothing is lost, doubled, reordered or torn: what the consumer has got are the first of the items that the producer has put in,
and at most `num - 1` are under way.  Missing: queues of more than `2 ^ 32` bytes. -/
theorem C71_order_partial {num size : Nat} {q : Queue} (hq : SpscQueue.init num size = some q) (hn : num < 2 ^ 32)
    (hf : num * size ≤ 2 ^ 32) (as : List (Option Bytes)) (ha : ∀ x, some x ∈ as → x.length = size) {s : State} {rs : List Ret}
    (hr : SpscQueue.run ⟨q, .idle, .idle⟩ as = .ok (s, rs)) :
    ∃ l, insertedItems rs = removedItems rs ++ l ∧ l.length < num := by
  obtain ⟨s', rs', l, e, hs⟩ := C71_threads_partial hq hn hf as ha
  rw [hr] at e
  injection e with e
  injection e with _ e
  subst e
  have h := insertedItems_turn hs
  have h2 := (init_some hq).1
  refine ⟨l, h.1, ?_⟩
  have := h.2 (by simp)
  omega

/-- A call returns after a number of steps of its own thread that depends only on the size of an item, whatever the other thread does.
Missing: queues of more than `2 ^ 32` bytes. -/
theorem C71_progress_partial {num size : Nat} {q : Queue} (hq : SpscQueue.init num size = some q) (hn : num < 2 ^ 32)
    (hf : num * size ≤ 2 ^ 32) (as : List (Option Bytes)) (ha : ∀ x, some x ∈ as → x.length = size) {s : State} {rs : List Ret}
    (hr : SpscQueue.run ⟨q, .idle, .idle⟩ as = .ok (s, rs)) :
    as.countP (·.isSome) / (size + 3) ≤ producerReturns rs ∧ as.countP (·.isNone) / (size + 2) ≤ consumerReturns rs := by
  have h := Has.start hq hn hf
  obtain ⟨_, _, rfl⟩ := init_some hq
  obtain ⟨s', rs', l, e, _, _, _, _, hp, hc⟩ :=
    run_spec as ⟨⟨fun _ => 0, num, size, 0, 0⟩, .idle, .idle⟩ [] ⟨h, trivial, trivial⟩ ha
  rw [hr] at e
  injection e with e
  injection e with e1 e2
  subst e1 e2
  have hp : as.countP (·.isSome) ≤ producerAt size s.p + (size + 3) * producerReturns rs := by simpa [producerAt] using hp
  have hc : as.countP (·.isNone) ≤ consumerAt size s.c + (size + 2) * consumerReturns rs := by simpa [consumerAt] using hc
  have b1 := producerAt_le size s.p
  have b2 := consumerAt_le size s.c
  constructor
  · apply Nat.le_of_lt_succ
    rw [Nat.div_lt_iff_lt_mul (by omega), Nat.succ_mul, Nat.mul_comm]
    omega
  · apply Nat.le_of_lt_succ
    rw [Nat.div_lt_iff_lt_mul (by omega), Nat.succ_mul, Nat.mul_comm]
    omega

/-- A call during which the other thread makes no step returns what it should for the items `l` under way, with the right number,
wherever the other thread is: the producer's after `size + 3` steps, or two if the queue is full, and the consumer's after `size + 2`, or
one if it is empty.  Missing: queues of more than `2 ^ 32` bytes. -/
theorem C71_alone_partial {num size : Nat} {q : Queue} (hq : SpscQueue.init num size = some q) (hn : num < 2 ^ 32)
    (hf : num * size ≤ 2 ^ 32) (as : List (Option Bytes)) (ha : ∀ x, some x ∈ as → x.length = size) {s : State} {rs : List Ret}
    (hr : SpscQueue.run ⟨q, .idle, .idle⟩ as = .ok (s, rs)) {l : List Bytes} (hl : insertedItems rs = removedItems rs ++ l) :
    (s.p = .idle → ∀ x, x.length = size → ∃ n r s' l', QueueCall (num - 1) l r l' ∧
      SpscQueue.run s (List.replicate n (some x)) = .ok (s', [r]) ∧ s'.p = .idle ∧
      ((r = .full x ∧ n = 2) ∨ (∃ k, r = .inserted x k ∧ n = size + 3))) ∧
    (s.c = .idle → ∃ n r s' l', QueueCall (num - 1) l r l' ∧
      SpscQueue.run s (List.replicate n none) = .ok (s', [r]) ∧ s'.c = .idle ∧
      ((r = .empty ∧ n = 1) ∨ (∃ x k, r = .removed x k ∧ n = size + 2))) := by
  have h := Has.start hq hn hf
  obtain ⟨_, _, rfl⟩ := init_some hq
  obtain ⟨s', rs', l', e, hs, hg, hnum, hsize, _⟩ :=
    run_spec as ⟨⟨fun _ => 0, num, size, 0, 0⟩, .idle, .idle⟩ [] ⟨h, trivial, trivial⟩ ha
  rw [hr] at e
  injection e with e
  injection e with e1 e2
  subst e1 e2
  have hi := insertedItems_turn hs
  have hll : l' = l := List.append_cancel_left ((hi.1.symm.trans hl))
  subst hll
  simp only at hnum hsize
  have hlt := hg.has.lt
  constructor
  · intro hp x hx
    obtain ⟨h1, h2⟩ := insert_alone hg hp (x := x) (by omega)
    rw [hnum] at h1 h2 hlt
    rw [hsize] at h1
    rcases Nat.lt_or_ge l'.length (num - 1) with g | g
    · obtain ⟨s', e, hs'⟩ := h1 g
      exact ⟨size + 3, _, s', _, .inserted g, e, hs', .inr ⟨_, rfl, rfl⟩⟩
    · obtain ⟨s', e, hs'⟩ := h2 (by omega)
      exact ⟨2, _, s', _, .full (by omega), e, hs', .inl ⟨rfl, rfl⟩⟩
  · intro hc
    obtain ⟨h1, h2⟩ := remove_alone hg hc
    rw [hsize] at h1
    cases l' with
    | nil =>
      obtain ⟨s', e, hs'⟩ := h2 rfl
      exact ⟨1, _, s', _, .empty, e, hs', .inl ⟨rfl, rfl⟩⟩
    | cons x m =>
      obtain ⟨s', e, hs'⟩ := h1 x m rfl
      exact ⟨size + 2, _, s', _, .removed, e, hs', .inr ⟨_, _, rfl, rfl⟩⟩

/-- What the calls return, without the queue. -/
def queueRets {α : Type} : Out (α × List Ret) → Option (List Ret)
  | .ok r => some r.2
  | _ => none

example : ∃ q, SpscQueue.init 4 2 = some q ∧ queueRets (SpscQueue.calls q
      [none, some [1, 2], some [3, 4], some [5, 6], some [7, 8], none, some [9, 10], none, none, none, none]) =
    some [.empty, .inserted [1, 2] 2, .inserted [3, 4] 1, .inserted [5, 6] 0, .full [7, 8], .removed [1, 2] 2,
      .inserted [9, 10] 0, .removed [3, 4] 2, .removed [5, 6] 1, .removed [9, 10] 0, .empty] :=
  ⟨_, rfl, by decide +kernel⟩

example : ∃ q, SpscQueue.init 2 2 = some q ∧ queueRets (SpscQueue.run ⟨q, .idle, .idle⟩
      [some [1, 2], none, some [0, 0], some [0, 0], some [0, 0], none, some [0, 0], none, some [3, 4], none, some [0, 0], none,
        none, some [5, 6], some [0, 0]]) =
    some [.empty, .empty, .inserted [1, 2] 0, .full [3, 4], .removed [1, 2] 0] :=
  ⟨_, rfl, by decide +kernel⟩

example : ∃ q, SpscQueue.init 4 1 = some q ∧ queueRets (SpscQueue.run ⟨q, .idle, .idle⟩
      [some [1], some [1], some [1], some [1], none, some [2], some [2], some [2], some [2], none, none]) =
    some [.inserted [1] 2, .inserted [2] 1, .removed [1] 0] :=
  ⟨_, rfl, by decide +kernel⟩

/-- With four items of 2 GB the places of the first and of the third are the same: the first item that is removed is not the first that
was put in, which nothing reports. -/
theorem C71_counterexample : ∃ q a b c q', SpscQueue.init 4 (2 ^ 31) = some q ∧ a.length = 2 ^ 31 ∧ b.length = 2 ^ 31 ∧
    c.length = 2 ^ 31 ∧ a ≠ c ∧
    SpscQueue.calls q [some a, some b, some c, none] = .ok (q', [.inserted a 2, .inserted b 1, .inserted c 0, .removed c 2]) ∧
    ¬ ∃ l, QueueSeq (QueueCall 3) [] [.inserted a 2, .inserted b 1, .inserted c 0, .removed c 2] l := by
  have hne : List.replicate (2 ^ 31) (1 : UInt8) ≠ List.replicate (2 ^ 31) 3 := by
    intro h
    have := congrArg List.head? h
    rw [List.head?_replicate, List.head?_replicate, if_neg (by decide), if_neg (by decide)] at this
    exact absurd this (by decide)
  obtain ⟨q', e⟩ := wide_calls (z := 2 ^ 31) (by decide) (a := List.replicate (2 ^ 31) 1) (b := List.replicate (2 ^ 31) 2) (c := List.replicate (2 ^ 31) 3)
    List.length_replicate List.length_replicate List.length_replicate
  refine ⟨_, _, _, _, q', rfl, List.length_replicate, List.length_replicate, List.length_replicate, hne, e, ?_⟩
  generalize List.replicate (2 ^ 31) (1 : UInt8) = a at hne
  generalize List.replicate (2 ^ 31) (2 : UInt8) = b
  generalize List.replicate (2 ^ 31) (3 : UInt8) = c at hne
  rintro ⟨l, h⟩
  cases h with
  | cons h1 h =>
    cases h1
    cases h with
    | cons h2 h =>
      cases h2
      cases h with
      | cons h3 h =>
        cases h3
        cases h with
        | cons h4 h =>
          cases h4
          exact hne rfl

end Verif.Props
