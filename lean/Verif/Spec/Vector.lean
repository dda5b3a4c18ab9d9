import Verif.Model.Base

/-!
# Specification: arrays that grow

What the operations of `libmy/vector.h` and `libmy/ubuf.h` do to the sequence of elements held.
-/

namespace Verif.Spec

/-- Operations on an array. -/
inductive ArrayOp (α : Type) where
  | add (x : α)
  | append (xs : List α)
  | reserve (k : Nat)
  /-- room for `k` elements is reserved, `xs` written behind the last element, and the size increased by their number -/
  | fill (k : Nat) (xs : List α)
  | reset
  | clip (k : Nat)
  | detach

/-- The sequence held after an operation. -/
def ArrayOp.effect {α : Type} (l : List α) : ArrayOp α → List α
  | .add x => l ++ [x]
  | .append xs => l ++ xs
  | .reserve _ => l
  | .fill _ xs => l ++ xs
  | .reset => []
  | .clip k => l.take k
  | .detach => []

/-- The number of elements that have to fit during an operation. -/
def ArrayOp.need {α : Type} (l : List α) : ArrayOp α → Nat
  | .add _ => l.length + 1
  | .append xs => l.length + xs.length
  | .reserve k => l.length + k
  | .fill k _ => l.length + k
  | _ => l.length

/-- A proper use: no more is written than has been reserved. -/
def ArrayOp.Proper {α : Type} : ArrayOp α → Prop
  | .fill k xs => xs.length ≤ k
  | _ => True

/-- Without a terminating NUL. -/
def chop (c : UInt8) (l : Bytes) : Bytes := if l.getLast? = some c then l.dropLast else l

/-- Operations on a buffer of bytes. -/
inductive BufOp where
  | array (op : ArrayOp UInt8)
  | addCstr (s : Bytes)
  | addFmt (s : Bytes)
  | cterm
  | rstrip (c : UInt8)

/-- The bytes held after an operation: a string added takes the place of the terminator of what is there. -/
def BufOp.effect (l : Bytes) : BufOp → Bytes
  | .array op => op.effect l
  | .addCstr s => chop 0 l ++ s
  | .addFmt s => chop 0 l ++ s
  | .cterm => if l.getLast? = some 0 then l else l ++ [0]
  | .rstrip c => chop c l

/-- The number of bytes that have to fit during an operation. -/
def BufOp.need (l : Bytes) : BufOp → Nat
  | .array op => op.need l
  | .addCstr s => l.length + s.length
  | .addFmt s => 2 * l.length + s.length + 1
  | .cterm => l.length + 1
  | .rstrip _ => l.length

/-- A proper use: formatted texts have a length that is an `int`. -/
def BufOp.Proper : BufOp → Prop
  | .array op => op.Proper
  | .addFmt s => s.length < 2 ^ 31
  | _ => True

end Verif.Spec
