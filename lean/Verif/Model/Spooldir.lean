import Verif.Model.Base
import Verif.Model.Util

/-!
# The spool directory of the bundled library (`/repo/libmy/spooldir.c`)

Files are known by their paths; who takes a name away and puts another file there makes a different file, with a number of its own.
What `readdir` delivers is given, since it is not specified for a directory that changes; so is whether `rename` succeeds.  The lock
(lines 149, 172, 202) makes calls on one object happen one after the other, so a call is one step.
-/

namespace Verif.Spooldir

/-- What `stat` tells of a file (`/repo/libmy/spooldir.c:60-66`, `160`), and which file it is. -/
inductive Kind where
  | regular
  | directory
  | other
  deriving DecidableEq

/-- A file, as the calls at `/repo/libmy/spooldir.c:155`, `192` and `196` see it. -/
structure File where
  num : Nat
  kind : Kind
  deriving DecidableEq

/-- The files of a directory with their paths (`/repo/libmy/spooldir.c:101-112`). -/
abbrev Files := List (Bytes × File)

/-- The file at a path (`stat`, `/repo/libmy/spooldir.c:50`). -/
def fileAt (d : Files) (p : Bytes) : Option File := (d.find? fun x => decide (x.1 = p)).map (·.2)

/-- The directory without the file at a path (`unlink`, `/repo/libmy/spooldir.c:195`). -/
def without (d : Files) (p : Bytes) : Files := d.filter fun x => decide (x.1 ≠ p)

/-- `ubuf_cterm`, `/repo/libmy/ubuf.h:58-66`. -/
def cterm (u : Bytes) : Bytes := if u.getLast? = some 0 then u else u ++ [0]

/-- `ubuf_add_cstr` and `ubuf_add_fmt` with a string, `/repo/libmy/ubuf.h:50-56` and `75-97`. -/
def add (u s : Bytes) : Bytes := (if u.getLast? = some 0 then u.dropLast else u) ++ s

/-- The string that a function of the system sees (`/repo/libmy/spooldir.c:192-196`). -/
def cstr (u : Bytes) : Bytes := u.takeWhile (· ≠ 0)

/-- `struct spooldir`, `/repo/libmy/spooldir.c:34-41`: the buffers with the names of the two directories; and the files there. -/
structure Spool where
  active : Bytes
  incoming : Bytes
  inFiles : Files
  acFiles : Files
  deriving DecidableEq

/-- `spooldir_init`, `/repo/libmy/spooldir.c:86-123`, for a directory whose subdirectories are there or can be made; `dname` is its real
path, `ins` and `acs` the files found. -/
def init (dname : Bytes) (ins acs : Files) : Spool :=
  ⟨cterm (add (add [] dname) (lit "/active")), cterm (add (add [] dname) (lit "/incoming")), ins, acs⟩

/-- The buffer of lines 180-182 and 184-187 of `/repo/libmy/spooldir.c`: the directory `d` and a name. -/
def pathIn (d name : Bytes) : Bytes := cterm (add ([] ++ d) (47 :: name))

/-- The loop at `/repo/libmy/spooldir.c:152-166`: the first of the names delivered that does not begin with a dot and is that of a
regular file. -/
def pick (s : Spool) : List Bytes → Option Bytes
  | [] => none
  | n :: ns =>
    if n.head? = some 46 then pick s ns
    else match fileAt s.inFiles (cstr (pathIn s.incoming n)) with
      | none => pick s ns
      | some f => if f.kind ≠ .regular then pick s ns else some n

/-- `unlink` of an existing destination, `/repo/libmy/spooldir.c:192-196`; it fails for a directory. -/
def clear (s : Spool) (p : Bytes) : Spool :=
  match fileAt s.acFiles p with
  | none => s
  | some f => if f.kind = .directory then s else { s with acFiles := without s.acFiles p }

/-- `rename`, `/repo/libmy/spooldir.c:198`; a file does not replace a directory.  `granted` says that there is no other reason for which it
fails. -/
def rename (s : Spool) (src dst : Bytes) (granted : Bool) : Option Spool :=
  match granted, fileAt s.inFiles src, fileAt s.acFiles dst with
  | true, some f, none => some { s with inFiles := without s.inFiles src, acFiles := (dst, f) :: s.acFiles }
  | true, some f, some g =>
    if g.kind = .directory then none
    else some { s with inFiles := without s.inFiles src, acFiles := (dst, f) :: without s.acFiles dst }
  | _, _, _ => none

/-- `spooldir_next`, `/repo/libmy/spooldir.c:139-205`; `names` is what `readdir` delivers from where it was, up to the end. -/
def next (s : Spool) (names : List Bytes) (granted : Bool) : Spool × Option Bytes :=
  match pick s names with
  | none => (s, none)
  | some n =>
    let s := clear s (cstr (pathIn s.active n))
    match rename s (cstr (pathIn s.incoming n)) (cstr (pathIn s.active n)) granted with
    | none => (s, none)
    | some s => (s, some (cstr (pathIn s.active n)))

/-- What happens to a spool directory: another program puts a file into `incoming`, in place of one of that name if there is one;
another program takes one away; one takes a file from `active`; `spooldir_next` is called (`/repo/libmy/spooldir.c:139-205`). -/
inductive Happens where
  | arrives (name : Bytes) (f : File)
  | vanishes (name : Bytes)
  | finished (name : Bytes)
  | call (names : List Bytes) (granted : Bool)

/-- The state after it, and the path returned with the file that is there then (`/repo/libmy/spooldir.c:139-205`). -/
def happen (s : Spool) : Happens → Spool × List (Bytes × Option File)
  | .arrives n f =>
    let p := cstr (pathIn s.incoming n)
    ({ s with inFiles := (p, f) :: without s.inFiles p }, [])
  | .vanishes n => ({ s with inFiles := without s.inFiles (cstr (pathIn s.incoming n)) }, [])
  | .finished n => ({ s with acFiles := without s.acFiles (cstr (pathIn s.active n)) }, [])
  | .call ns g =>
    let r := next s ns g
    (r.1, r.2.toList.map fun p => (p, fileAt r.1.acFiles p))

/-- All paths returned, with the files that are there when they are (`/repo/libmy/spooldir.c:139-205`). -/
def run : Spool → List Happens → List (Bytes × Option File)
  | _, [] => []
  | s, h :: hs => (happen s h).2 ++ run (happen s h).1 hs

end Verif.Spooldir
