import Verif.Model.MergeMem

/-!
# Specification: what a merge function owes its caller

mtbl hands the merge function a key and two values; it gets a block of its own, which it frees.
-/

namespace Verif.Spec

/-- The answer to the heap `h` is a new block, not less than the merged value, which it begins with, and the length of the
value; or NULL, when there is no merged value, and then nothing has been allocated.  No other block is touched. -/
def Hands (x : Out (Merged × Heap)) (h : Heap) (o : Out Bytes) : Prop :=
  match o with
  | .ok r => ∃ p b h', x = .ok ((some p, some r.length), h') ∧ p ∉ h.live.map Prod.fst ∧ h'.live = (p, b) :: h.live ∧ r <+: b
  | .fail => ∃ n, x = .ok ((none, n), h)
  | .fault f => x = .fault f

/-- The values of a key, merged from left to right as mtbl does: each result is copied and its block freed. -/
def mergeValuesMem (merge : Bytes → Bytes → Mem Merged) : Bytes → List Bytes → Mem (Option Bytes)
  | v, [] => pure (some v)
  | v, w :: ws => do
    match ← merge v w with
    | (some p, some n) =>
      let b ← mLoad p
      let r ← mPure (if n ≤ b.length then .ok (b.take n) else .fault .oobRead)
      mFree (some p)
      mergeValuesMem merge r ws
    | (some _, none) => mPure (.fault .oobRead)
    | (none, _) => pure none

/-- An index of names: its keys are of type 1 or 3. -/
def indexKey (key : Bytes) : Prop := key.head? = some 1 ∨ key.head? = some 3

end Verif.Spec
