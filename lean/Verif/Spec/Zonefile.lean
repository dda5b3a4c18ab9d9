import Verif.Model.Zonefile

/-!
# What reading a zone file should give
-/

namespace Verif.Spec
open Verif.Zonefile

/-- The records of a file. -/
def recordsOf (is : List Item) : List Rec := is.filterMap fun | .record r => some r | _ => none

/-- An entry that is neither a record nor an error. -/
def Remark (i : Item) : Prop := i = .blank ∨ i = .origin

/-- What the entries of a file are told as: a record that is not an SOA as itself, an SOA as the end, an error as an error, and all
else not at all. -/
def tellings (is : List Item) : List Read := is.filterMap fun
  | .record r => some (if r.soa then .none else .rr r)
  | .bad => some .error
  | _ => none

/-- The first `n` elements of a list, filled up with `x`. -/
def firstOf {α : Type} (x : α) : Nat → List α → List α
  | 0, _ => []
  | n + 1, [] => x :: firstOf x n []
  | n + 1, a :: l => a :: firstOf x n l

/-- The records among the answers. -/
def givenOut (xs : List Read) : List Rec := xs.filterMap fun | .rr r => some r | _ => none

end Verif.Spec
