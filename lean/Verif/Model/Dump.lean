import Verif.Model.Reader
import Verif.Model.LookupRun

/-!
# `dnstable_dump` (`/repo/src/dnstable_dump.c`)

From the option variables on; how `argv_process` sets them is in `Argv`.  The standard error stream is left out.
-/

namespace Verif

/-- The option variables, `/repo/src/dnstable_dump.c:33-41`. -/
structure DumpFlags where
  json : Bool := false
  addRaw : Bool := false
  rrset : Bool := false
  rdata : Bool := false
  rrsetNames : Bool := false
  rdataNames : Bool := false
  timeRange : Bool := false
  version : Bool := false
  sourceInfo : Bool := false
deriving DecidableEq, Repr

/-- The string made by `print_entry`, `/repo/src/dnstable_dump.c:131-134`, with the formatter set up in
`/repo/src/dnstable_dump.c:209-212`. -/
def dumpString (F : DumpFlags) (v : Printer) (e : Entry) : Out Bytes :=
  if F.json then
    entryFormat v.numbuf v.gmtime v.locale v.wdns
      (((({} : Formatter).setOutputFormat true).setDateFormat true).setRawRdata F.addRaw) e
  else entryToText v.gmtime v.locale v.wdns e

/-- The case labels of `print_entry`, `/repo/src/dnstable_dump.c:123-129`. -/
def dumpTypes : List Nat :=
  [tRRSET, tRRSET_NAME_FWD, tRDATA, tRDATA_NAME_REV, tTIME_RANGE, tSOURCE_INFO, tVERSION]

/-- `print_entry`, `/repo/src/dnstable_dump.c:119-147`: what it writes to the standard output. -/
def dumpEntry (F : DumpFlags) (v : Printer) (e : Entry) : Out Bytes :=
  if dumpTypes.contains e.getType then
    match dumpString F v e with
    | .fault f => .fault f
    | .fail => .ok []
    | .ok s => .ok (cstr s ++ if !(!F.json && e.getType == tRDATA) then [10] else [])
  else .ok []

/-- Where the program has got to: still in the loop, with what it has written; at the end, with the exit status and
what it has written; or not properly ended; `/repo/src/dnstable_dump.c:149-227`. -/
inductive DumpState where
  | running (out : Bytes)
  | exit (success : Bool) (out : Bytes)
  | fault (f : Fault)
deriving DecidableEq, Repr

/-- `do_dump`, `/repo/src/dnstable_dump.c:149-159`, for `n` calls of `dnstable_iter_next`; `main` then returns
success, `/repo/src/dnstable_dump.c:226`. -/
def sectionLoop (F : DumpFlags) (v : Printer) (R : Src) : Nat → View × Table → World → Bytes → DumpState
  | 0, _, _, out => .running out
  | n + 1, s, w, out =>
    match readerNext R s w with
    | (.fault f, _, _) => .fault f
    | (.entry e, s, w) =>
      match dumpEntry F v e with
      | .ok t => sectionLoop F v R n s w (out ++ t)
      | .fail => .fault .abort
      | .fault f => .fault f
    | (_, _, _) => .exit true out

/-- The iterator opened, `/repo/src/dnstable_dump.c:193-207`; the type bytes are those of
`/repo/dnstable/reader.c:85-124`. -/
def dumpKind (F : DumpFlags) : Option UInt8 :=
  if F.rrset then some 0
  else if F.rdata then some 2
  else if F.rrsetNames then some 1
  else if F.rdataNames then some 3
  else if F.timeRange then some 254
  else if F.version then some 255
  else if F.sourceInfo then some 253
  else none

/-- `-R` is refused, `/repo/src/dnstable_dump.c:170-179`. -/
def dumpRefuses (F : DumpFlags) : Bool :=
  F.addRaw && (!(F.rdata || F.rrset) || !F.json)

/-- `main`, `/repo/src/dnstable_dump.c:161-227`, up to the `n`-th call of `dnstable_iter_next`; `file` is the table
opened, `none` if that fails (`/repo/src/dnstable_dump.c:181-187`). -/
def dnstableDump (F : DumpFlags) (v : Printer) (file : Option Src) (n : Nat) (w : World) : DumpState :=
  if dumpRefuses F then .exit false []
  else
    match file with
    | none => .exit false []
    | some R =>
      match dumpKind F with
      | none => .fault .abort
      | some t =>
        match readerOpen ⟨some R⟩ (some t) with
        | .ok s => sectionLoop F v R n s w []
        | .fail => .fault .abort
        | .fault f => .fault f

end Verif
