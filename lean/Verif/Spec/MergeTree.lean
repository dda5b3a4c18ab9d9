/-!
# Specification: grouping of merges

How a merger combines the values of one key is not prescribed: any binary tree of pairwise merges
over the values may occur.
-/

namespace Verif.Spec

/-- A grouping of values into pairwise merges. -/
inductive MTree (α : Type) where
  | leaf (a : α)
  | node (l r : MTree α)

namespace MTree
variable {α β : Type}

/-- The values being merged, left to right. -/
def leaves : MTree α → List α
  | leaf a => [a]
  | node l r => leaves l ++ leaves r

/-- Replace every value. -/
def map (f : α → β) : MTree α → MTree β
  | leaf a => leaf (f a)
  | node l r => node (l.map f) (r.map f)

theorem leaves_ne_nil (t : MTree α) : t.leaves ≠ [] := by
  induction t with
  | leaf a => simp [leaves]
  | node l r ihl _ => simp [leaves, ihl]

end MTree

/-- A left-leaning grouping: what a merger does that folds the values in file order. -/
def MTree.chain {α : Type} (a : α) : List α → MTree α
  | l => l.foldl (fun t b => .node t (.leaf b)) (.leaf a)

end Verif.Spec
