import Verif.Spec.Order
import Verif.Model.MyFileset

/-!
# What a set of files should do
-/

namespace Verif.Spec
open Verif.MyFileset (Act Scene)

/-- Text cut at each byte `c`. -/
def cutAt (c : UInt8) : Bytes → List Bytes
  | [] => [[]]
  | b :: bs => if b = c then [] :: cutAt c bs else
    match cutAt c bs with
    | [] => [[b]]
    | x :: xs => (b :: x) :: xs

/-- The names that a text lists: one to a line, to be completed with the directory and a slash; what follows a NUL does not count. -/
def namesListed (dir text : Bytes) : List Bytes :=
  let pieces := cutAt 10 text
  let lines := if pieces.getLast? = some [] then pieces.dropLast else pieces
  lines.map fun l => dir ++ 47 :: l.takeWhile (· ≠ 0)

/-- Inode and time of the set file that the last of these calls saw that saw one. -/
def lastSeen : List Scene → Nat × Nat
  | [] => (0, 0)
  | sc :: scs => if scs.any (·.stat.isSome) then lastSeen scs else sc.stat.getD (0, 0)

/-- What the callbacks hold open after these calls; `none` if something is opened with a pointer that is in use, or closed that is
not open. -/
def holding : List (Bytes × Nat) → List Act → Option (List (Bytes × Nat))
  | l, [] => some l
  | l, .load n p :: as => if p ∈ l.map (·.2) then none else holding ((n, p) :: l) as
  | l, .unload n p :: as => if (n, p) ∈ l then holding (l.erase (n, p)) as else none

/-- The names opened by these calls. -/
def openedNames : List Act → List Bytes
  | [] => []
  | .load n _ :: as => n :: openedNames as
  | .unload _ _ :: as => openedNames as

/-- What is closed by these calls. -/
def closedFiles : List Act → List (Bytes × Nat)
  | [] => []
  | .load _ _ :: as => closedFiles as
  | .unload n p :: as => (n, p) :: closedFiles as

end Verif.Spec
