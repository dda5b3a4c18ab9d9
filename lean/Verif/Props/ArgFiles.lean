import Verif.Lemmas.ArgFiles
import Verif.Props.DumpOptions

/-!
# C63: arguments in files
-/

namespace Verif.Props
open Spec

/-- C63, files of arguments.  `--argv-file=PATH`, or `--argv-file` followed by `PATH`, stands for the lines of the file: the program
does what it does when they are given in its place.  Partial: every file can be read, has lines with less than 1023 characters and
none that is just `--`, and when all is spelled out the arguments are usual ones. -/
theorem C63_files_partial {W : ArgWorld} {args : List Bytes} (hd : 0 < W.depth) (h : spelledOut W.files W.args = some args)
    (hW : UsualStart { W with args := args }) (tables : Bytes → Option Src) (v : Printer) (n : Nat) (w : World) :
    dumpProgram W tables v n w = dumpProgram { W with args := args } tables v n w := by
  rw [dumpProgram_words hW]
  unfold dumpProgram
  have hw := hW.words
  unfold dumpWords at hw ⊢
  rw [← envArgs_words] at hw ⊢
  obtain ⟨d, hd⟩ : ∃ d, W.depth = d + 1 := ⟨W.depth - 1, by omega⟩
  rw [argvProcess_ends W hW.settings (commandWords false args) (fun x hx => hw x (List.mem_append.2 (.inl hx)))]
  · cases dumpCommand (commandWords false (envArgs W.getenv W.argv0) ++ commandWords false args) <;> rfl
  · rw [hd]
    exact doList_spelled W.files d _ _ _ W.args args _ [] (Nat.le_refl _) h (by simp; omega)
      fun x hx => hw x (List.mem_append.2 (.inr hx))

/-- Three files of arguments, named in both ways, one of them empty; then a table whose name begins with `-`. -/
def exFileStart : ArgWorld :=
  { argv0 := lit "dnstable_dump", depth := 5
    args := [lit "--argv-file", lit "a", lit "-R", lit "--argv-file=b", lit "--argv-file", lit "c", lit "--", lit "-t"]
    files := fun p =>
      if p = lit "a" then some (lit "-j\n\n--rdata_full\n") else if p = lit "b" then some (lit "--raw=no") else some [] }

/-- The hypotheses of the theorem are met. -/
example : spelledOut exFileStart.files exFileStart.args = some [lit "-j", lit "--rdata_full", lit "-R", lit "--raw=no", lit "--", lit "-t"] ∧
    UsualStart { exFileStart with args := [lit "-j", lit "--rdata_full", lit "-R", lit "--raw=no", lit "--", lit "-t"] } :=
  ⟨by decide +kernel, rfl, by decide +kernel⟩

example (v : Printer) (R : Src) (n : Nat) (w : World) :
    dumpProgram exFileStart (fun f => if f = lit "-t" then some R else none) v n w =
      dnstableDump { json := true, rdata := true } v (some R) n w := by
  have hu : UsualStart { exFileStart with args := [lit "-j", lit "--rdata_full", lit "-R", lit "--raw=no", lit "--", lit "-t"] } :=
    ⟨rfl, by decide +kernel⟩
  rw [C63_files_partial (by decide) (by decide +kernel) hu, dumpProgram_words hu]
  rfl

end Verif.Props
