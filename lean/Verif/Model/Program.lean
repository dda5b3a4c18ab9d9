import Verif.Model.Command
import Verif.Model.LookupRun
import Verif.Model.Unaggregated

/-!
# The program `dnstable_lookup` (`/repo/src/dnstable_lookup.c`)

`Model.Command` and `Model.LookupRun` put together: from the command line to the output.
-/

namespace Verif

/-- What the program finds on disk: tables by path (`mtbl_reader_init`, `/repo/src/dnstable_lookup.c:487`), the tables
named in a set file (`dnstable_reader_init_setfile`, `/repo/dnstable/reader.c:47-59`), and what mtbl is free to do. -/
structure Disk where
  opens : Bytes → Option Src
  members : Bytes → List Src
  env : FsEnv

/-- Where the program has got to: exited with a message and `EXIT_FAILURE`; running, with what it has written to the
standard output and the number of entries; at its end, by a timeout or not, with what it has written to the standard
output, the last lines on the standard error stream, and the clock; or not properly ended
(`/repo/src/dnstable_lookup.c:143-198,295-638`). -/
inductive Progress where
  | refused
  | running (out : Bytes) (count : Nat)
  | done (timedOut : Bool) (out closing : Bytes) (world : World)
  | fault (f : Fault)

/-- What `dnstable_reader_query` goes on with, `/repo/dnstable/reader.c:127-138`. -/
inductive OpenedStore where
  | file (f : Src)
  | fileset (O : FsOpened)

/-- `dnstable_reader_query`, `/repo/dnstable/reader.c:127-138`: a query on a set file opens its file sets. -/
def openedStore (D : Disk) (q : Query) (w : World) : Store → Out OpenedStore
  | .file f => .ok (.file f)
  | .setfile path => do
    let O ← openFileset q D.env w w (D.members path)
    .ok (.fileset O)

/-- The sources of the query: those of `dnstable_query_iter`, `/repo/dnstable/query.c:1817-1826`, or of
`dnstable_query_iter_fileset`, `/repo/dnstable/query.c:2003-2058`. -/
def OpenedStore.sources (D : Disk) (q : Query) : OpenedStore → Sources
  | .file f => plainSources f.mach
  | .fileset O => O.sources q D.env

/-- What can be seen of `do_dump`, `/repo/src/dnstable_lookup.c:143-198`. -/
def progress (F : CliFlags) (v : Printer) {B : Built} : Dump B → Progress
  | .running d => .running d.out d.count
  | .ended r d => .done (decide (r = .timeout)) d.out (farewell F v r d.count) d.world
  | .fault f => .fault f

/-- `main`, `/repo/src/dnstable_lookup.c:295-638`, for `n` calls of `dnstable_iter_next`, started in the world `w`; the
new iterator has its query's offset before it (`/repo/dnstable/query.c:1701-1815`).  A NULL iterator (lines 624-628)
ends the program. -/
def lookupProgram (A : Arith) (L : Libs) (T : TimeLibs) (D : Disk) (E : CmdEnv) (opts : List OptEvent)
    (argv : List Bytes) (v : Printer) (n : Nat) (w : World) : Progress :=
  match lookupStart A L T D.opens E opts argv with
  | .fail => .refused
  | .fault f => .fault f
  | .ok s =>
    let w := { w with offset := s.query.offset }
    let x := limitQuery s.timeout s.interval s.query w
    match openedStore D x.2.1 x.2.2 s.store with
    | .fail => .refused
    | .fault f => .fault f
    | .ok O =>
      match initKind x.2.1 with
      | .fail => .refused
      | .fault f => .fault f
      | .ok p => progress s.flags v (lookupRun s.flags v s.timeout s.interval s.query (O.sources D x.2.1) p n w)

end Verif
