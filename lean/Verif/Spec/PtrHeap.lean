import Verif.Model.PtrHeap

/-!
# What a heap of pointers does

The contents are a sequence (the items in the order of `heap_get`) of which most calls only fix the multiset; `tidy` says that no
item was put in with `heap_add` since the last `heap_heapify`.
-/

namespace Verif.Spec

open Verif.PtrHeap

/-- The comparison function orders the items: no two are each before the other, and `a` is before `c` only if it is before `b` or `b`
is before `c`. -/
structure Orders {α : Type} (cmp : α → α → Int) : Prop where
  asymm : ∀ a b, cmp a b < 0 → ¬ cmp b a < 0
  trans : ∀ a b c, ¬ cmp b a < 0 → ¬ cmp c b < 0 → ¬ cmp c a < 0

/-- `x` is one of the first items of the contents `l`. -/
def Least {α : Type} (cmp : α → α → Int) (l : List α) (x : α) : Prop := x ∈ l ∧ ∀ y ∈ l, ¬ cmp y x < 0

/-- `HeapCall cmp (l, t) o r (l', t')`: on a heap with contents `l` that is tidy if `t`, the call `o` returns `r` and leaves `l'`
and `t'`. -/
inductive HeapCall {α : Type} (cmp : α → α → Int) : List α × Bool → Op α → Ret α → List α × Bool → Prop where
  | push {l l' t x} : l'.Perm (x :: l) → HeapCall cmp (l, t) (.push x) .unit (l', t)
  | popNone {t} : HeapCall cmp ([], t) .pop (.item none) ([], t)
  | pop {l l' t x} : l.head? = some x → (x :: l').Perm l → (Orders cmp → t = true → Least cmp l x) →
      HeapCall cmp (l, t) .pop (.item (some x)) (l', t)
  | replaceNone {t y} : HeapCall cmp ([], t) (.replace y) (.item none) ([], t)
  | replace {l m l' t x y} : l = x :: m → l'.Perm (y :: m) → (Orders cmp → t = true → Least cmp l x) →
      HeapCall cmp (l, t) (.replace y) (.item (some x)) (l', t)
  | peekNone {t} : HeapCall cmp ([], t) .peek (.item none) ([], t)
  | peek {l t x} : l.head? = some x → (Orders cmp → t = true → Least cmp l x) →
      HeapCall cmp (l, t) .peek (.item (some x)) (l, t)
  | get {l t i} : HeapCall cmp (l, t) (.get i) (.item l[i]?) (l, t)
  | size {l t} : HeapCall cmp (l, t) .size (.num l.length) (l, t)
  | reset {l t} : HeapCall cmp (l, t) .reset .unit ([], true)
  | clip {l t n} : HeapCall cmp (l, t) (.clip n) .unit (l.take n, t)
  | add {l t x} : HeapCall cmp (l, t) (.add x) .unit (l ++ [x], false)
  | heapify {l l' t} : l'.Perm l → HeapCall cmp (l, t) .heapify .unit (l', true)

/-- A sequence of calls from one state to another, with what they return. -/
inductive HeapCalls {α : Type} (cmp : α → α → Int) : List α × Bool → List (Op α) → List (Ret α) → List α × Bool → Prop where
  | nil {s} : HeapCalls cmp s [] [] s
  | cons {s s' s'' o r os rs} : HeapCall cmp s o r s' → HeapCalls cmp s' os rs s'' → HeapCalls cmp s (o :: os) (r :: rs) s''

end Verif.Spec
