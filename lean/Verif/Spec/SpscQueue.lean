import Verif.Model.SpscQueue

/-!
# What a queue of one producer and one consumer does

The contents are the items inserted and not yet removed, oldest first.
-/

namespace Verif.Spec

open Verif.SpscQueue (Ret)

/-- A call on a queue for `cap` items, one after the other: what it returns with contents `l` and what it leaves. -/
inductive QueueCall (cap : Nat) : List Bytes → Ret → List Bytes → Prop where
  | inserted {l x} : l.length < cap → QueueCall cap l (.inserted x (cap - (l.length + 1))) (l ++ [x])
  | full {l x} : l.length = cap → QueueCall cap l (.full x) l
  | removed {l x} : QueueCall cap (x :: l) (.removed x l.length) l
  | empty : QueueCall cap [] .empty []

/-- A call during which the other thread makes calls: the number it gives is at most the number of places that are free, or of items
that are there, when it returns. -/
inductive QueueTurn (cap : Nat) : List Bytes → Ret → List Bytes → Prop where
  | inserted {l x n} : n + (l.length + 1) ≤ cap → QueueTurn cap l (.inserted x n) (l ++ [x])
  | full {l x} : l.length = cap → QueueTurn cap l (.full x) l
  | removed {l x n} : n ≤ l.length → QueueTurn cap (x :: l) (.removed x n) l
  | empty : QueueTurn cap [] .empty []

/-- Calls in sequence, each as `R` says. -/
inductive QueueSeq (R : List Bytes → Ret → List Bytes → Prop) : List Bytes → List Ret → List Bytes → Prop where
  | nil {l} : QueueSeq R l [] l
  | cons {l m n r rs} : R l r m → QueueSeq R m rs n → QueueSeq R l (r :: rs) n

/-- The items whose insertion succeeded, in order. -/
def insertedItems : List Ret → List Bytes
  | [] => []
  | .inserted x _ :: rs => x :: insertedItems rs
  | _ :: rs => insertedItems rs

/-- The items that were removed, in order. -/
def removedItems : List Ret → List Bytes
  | [] => []
  | .removed x _ :: rs => x :: removedItems rs
  | _ :: rs => removedItems rs

/-- The number of calls that return to the producer. -/
def producerReturns : List Ret → Nat
  | [] => 0
  | .inserted _ _ :: rs => producerReturns rs + 1
  | .full _ :: rs => producerReturns rs + 1
  | _ :: rs => producerReturns rs

/-- The number of calls that return to the consumer. -/
def consumerReturns : List Ret → Nat
  | [] => 0
  | .removed _ _ :: rs => consumerReturns rs + 1
  | .empty :: rs => consumerReturns rs + 1
  | _ :: rs => consumerReturns rs

end Verif.Spec
