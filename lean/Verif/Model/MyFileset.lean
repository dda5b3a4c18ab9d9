import Verif.Model.Base

/-!
# The set of files of the bundled library (`/repo/libmy/my_fileset.c`)

Both callbacks are given.  A pointer that the callback `load` returns is the number of the call that returned it.  Names are without
their NUL; memory does not run out.
-/

namespace Verif.MyFileset

/-- `struct fileset_entry`, `/repo/libmy/my_fileset.c:31-35`. -/
structure Item where
  keep : Bool
  fname : Bytes
  ptr : Nat
  deriving DecidableEq

/-- `struct my_fileset`, `/repo/libmy/my_fileset.c:39-48`, and the number of calls of `load` so far. -/
structure Fileset where
  ino : Nat
  mtime : Nat
  setdir : Bytes
  items : List Item
  loads : Nat

/-- A call of a callback: `load` with what it returned, `/repo/libmy/my_fileset.c:189`, or `unload`,
`/repo/libmy/my_fileset.c:137,212`. -/
inductive Act where
  | load (fname : Bytes) (ptr : Nat)
  | unload (fname : Bytes) (ptr : Nat)
  deriving DecidableEq

/-- What a call of `my_fileset_reload` finds: inode and time of the set file if `stat` succeeds (`/repo/libmy/my_fileset.c:68`), its
contents if `fopen` does (line 169), and which files there are (line 55). -/
structure Scene where
  stat : Option (Nat × Nat)
  file : Option Bytes
  present : Bytes → Bool

/-- `my_fileset_init`, `/repo/libmy/my_fileset.c:110-128`, with the directory of the set file. -/
def init (setdir : Bytes) : Fileset := ⟨0, 0, setdir, [], 0⟩

/-- `setfile_updated`, `/repo/libmy/my_fileset.c:62-80`. -/
def setfileUpdated (fs : Fileset) : Option (Nat × Nat) → Bool × Fileset
  | none => (false, fs)
  | some (ino, mtime) =>
    if fs.ino ≠ ino ∨ fs.mtime ≠ mtime then (true, { fs with ino := ino, mtime := mtime }) else (false, fs)

/-- `strcmp` of two names, `/repo/libmy/my_fileset.c:93`. -/
def strcmp : Bytes → Bytes → Ordering
  | [], [] => .eq
  | [], _ :: _ => .lt
  | _ :: _, [] => .gt
  | a :: as, b :: bs => if a.toNat < b.toNat then .lt else if b.toNat < a.toNat then .gt else strcmp as bs

/-- The loop of `bsearch`, called at `/repo/libmy/my_fileset.c:102-106`: halves the range from `lo` to `hi`. -/
def search (items : List Item) (fname : Bytes) : Nat → Nat → Nat → Option Nat
  | 0, _, _ => none
  | fuel + 1, lo, hi =>
    if lo < hi then
      match items[(lo + hi) / 2]? with
      | none => none
      | some e =>
        match strcmp fname e.fname with
        | .lt => search items fname fuel lo ((lo + hi) / 2)
        | .gt => search items fname fuel ((lo + hi) / 2 + 1) hi
        | .eq => some ((lo + hi) / 2)
    else none

/-- `fetch_entry`, `/repo/libmy/my_fileset.c:96-108`. -/
def fetchEntry (items : List Item) (fname : Bytes) : Option Nat := search items fname (items.length + 1) 0 items.length

/-- `getline`, `/repo/libmy/my_fileset.c:176`: the lines of a file, each with its newline. -/
def getLines : Bytes → Bytes → List Bytes
  | [], [] => []
  | acc, [] => [acc]
  | acc, b :: bs => if b = 10 then (acc ++ [b]) :: getLines [] bs else getLines (acc ++ [b]) bs

/-- The name that a line gives, `/repo/libmy/my_fileset.c:177-182`: what is before a NUL, and without the newline. -/
def lineName (setdir line : Bytes) : Bytes :=
  let u := setdir ++ [47] ++ line.takeWhile (· ≠ 0)
  if u.getLast? = some 10 then u.dropLast else u

/-- The entries so far, the new entries, the number of calls of `load` and the calls of callbacks
(`/repo/libmy/my_fileset.c:158-163`). -/
structure Work where
  old : List Item
  new : List Item
  loads : Nat
  acts : List Act

/-- The body of the loop over the lines, `/repo/libmy/my_fileset.c:183-198`. -/
def addLine (present : Bytes → Bool) (w : Work) (fname : Bytes) : Work :=
  if present fname then
    match fetchEntry w.old fname with
    | none => { w with
        new := w.new ++ [⟨false, fname, w.loads⟩], loads := w.loads + 1, acts := w.acts ++ [.load fname w.loads] }
    | some i =>
      match w.old[i]? with
      | none => w
      | some e => { w with new := w.new ++ [⟨false, fname, e.ptr⟩], old := w.old.set i { e with keep := true } }
  else w

/-- Puts an entry where it belongs (`qsort`, `/repo/libmy/my_fileset.c:203-206`). -/
def place (e : Item) : List Item → List Item
  | [] => [e]
  | x :: xs => if strcmp e.fname x.fname = .gt then x :: place e xs else e :: x :: xs

/-- `qsort`, `/repo/libmy/my_fileset.c:203-206`; for names that occur once the result does not depend on the method. -/
def sort (es : List Item) : List Item := es.foldr place []

/-- The loop over the entries so far, `/repo/libmy/my_fileset.c:208-215`. -/
def drop : List Item → List Act
  | [] => []
  | e :: es => if e.keep = false then .unload e.fname e.ptr :: drop es else drop es

/-- `my_fileset_reload`, `/repo/libmy/my_fileset.c:155-219`. -/
def reload (fs : Fileset) (sc : Scene) : Fileset × List Act :=
  let (updated, fs) := setfileUpdated fs sc.stat
  if !updated then (fs, [])
  else
    match sc.file with
    | none => (fs, [])
    | some contents =>
      let names := (getLines [] contents).map (lineName fs.setdir)
      let w := names.foldl (addLine sc.present) ⟨fs.items, [], fs.loads, []⟩
      ({ fs with items := sort w.new, loads := w.loads }, w.acts ++ drop w.old)

/-- `my_fileset_destroy`, `/repo/libmy/my_fileset.c:130-147`: the calls it makes. -/
def destroy (fs : Fileset) : List Act := fs.items.map fun e => .unload e.fname e.ptr

/-- `my_fileset_get`, `/repo/libmy/my_fileset.c:221-234`. -/
def get (fs : Fileset) (i : Nat) : Option (Bytes × Nat) :=
  match fs.items[i]? with
  | some e => some (e.fname, e.ptr)
  | none => none

/-- Calls of `my_fileset_reload` one after the other, with all the calls of callbacks (`/repo/libmy/my_fileset.c:155-219`). -/
def reloads : Fileset → List Scene → Fileset × List Act
  | fs, [] => (fs, [])
  | fs, sc :: scs =>
    let (fs, as) := reload fs sc
    let (fs, bs) := reloads fs scs
    (fs, as ++ bs)

end Verif.MyFileset
