import Verif.Model.Spooldir

/-!
# What a spool directory should do
-/

namespace Verif.Spec
open Verif.Spooldir

/-- The path of a name in a directory below `dname`. -/
def pathBelow (dname : Bytes) (sub : String) (name : Bytes) : Bytes := dname ++ lit sub ++ [47] ++ name

/-- A name of a file: not empty, and without the character that ends strings. -/
def FileName (n : Bytes) : Prop := n ≠ [] ∧ 0 ∉ n

/-- A file that may be given out: regular, and its name does not begin with a dot. -/
def Offered (dname : Bytes) (ins : Files) (n : Bytes) : Prop :=
  n.head? ≠ some 46 ∧ ∃ f, fileAt ins (pathBelow dname "/incoming" n) = some f ∧ f.kind = .regular

/-- The files that arrive. -/
def arrivals (hs : List Happens) : List Nat := hs.flatMap fun | .arrives _ f => [f.num] | _ => []

end Verif.Spec
