import Verif.Model.Util

/-!
# Arguments in files

An argument `--argv-file=PATH`, or `--argv-file` and `PATH` after it, stands for the lines of the file.
-/

namespace Verif.Spec

/-- A text cut at its line ends; the last part is what follows the last one. -/
def cutLines : Bytes → List Bytes
  | [] => [[]]
  | b :: t =>
    if b = 10 then [] :: cutLines t
    else
      match cutLines t with
      | l :: ls => (b :: l) :: ls
      | [] => [[b]]

/-- The lines with something in them. -/
def fullLines (t : Bytes) : List Bytes := (cutLines t).filter fun l => !l.isEmpty

/-- The lines of a file of arguments, if it is one: a file that can be read, of lines with less than 1023 characters, none of them
NUL, none of them just `--`. -/
def argLines (files : Bytes → Option Bytes) (path : Bytes) : Option (List Bytes) :=
  if path = lit "-" then none
  else
    match files path with
    | some t => if 0 ∉ t ∧ (∀ l ∈ cutLines t, l.length < 1023) ∧ lit "--" ∉ fullLines t then some (fullLines t) else none
    | none => none

/-- The file an argument `--argv-file=PATH` names. -/
def argFileOf (a : Bytes) : Option Bytes := if (lit "--argv-file=").isPrefixOf a then some (a.drop 12) else none

/-- Arguments with files of arguments replaced by their lines, up to `--`. -/
def spelledOut (files : Bytes → Option Bytes) : List Bytes → Option (List Bytes)
  | [] => some []
  | [a] =>
    match argFileOf a with
    | some p => argLines files p
    | none => if a = lit "--argv-file" then none else some [a]
  | a :: p :: as =>
    if a = lit "--" then some (a :: p :: as)
    else if a = lit "--argv-file" then
      if (lit "-").isPrefixOf p then none
      else
        match argLines files p, spelledOut files as with
        | some ls, some r => some (ls ++ r)
        | _, _ => none
    else
      match argFileOf a with
      | some p' =>
        match argLines files p', spelledOut files (p :: as) with
        | some ls, some r => some (ls ++ r)
        | _, _ => none
      | none =>
        match spelledOut files (p :: as) with
        | some r => some (a :: r)
        | none => none

end Verif.Spec
