import Verif.Model.Lookup
import Verif.Model.LookupRun
import Verif.Model.ParseTime
import Verif.Model.Unaggregated

/-!
# The command line of `dnstable_lookup` (`/repo/src/dnstable_lookup.c:295-638`)

`getopt` belongs to libc: the options are given as the list of what it returns one after the other, the arguments as
what it leaves.  `fail` stands for `exit(EXIT_FAILURE)`, after a message to the standard error stream that is left out.
-/

namespace Verif

/-- A result of `getopt`, `/repo/src/dnstable_lookup.c:320`: the character returned (`?` for an option it does not know),
`optarg`, and the second the clock reports if it is read on account of it. -/
structure OptEvent where
  ch : UInt8
  arg : Bytes := []
  now : Nat := 0
deriving DecidableEq, Repr

/-- The variables set by the options, `/repo/src/dnstable_lookup.c:34-40,310-314`; numbers below 0 are never kept. -/
structure CmdVars where
  times : CliTimes := {}
  strict : Bool := false
  caseSensitive : Bool := false
  timeout : Nat := 0
  interval : Nat := 0
  offset : Nat := 0
  aggregate : Bool := true
  flags : CliFlags := {}
deriving DecidableEq, Repr

/-- `atoi`, called at `/repo/src/dnstable_lookup.c:357,377,385`, as glibc has it: the `long` of `strtol` cut to an
`int`.  (The C standard leaves numbers out of range undefined.) -/
def atoi (s : Bytes) : Int :=
  let u := (strtoll s).1 % 2 ^ 32
  if u ≥ 2 ^ 31 then u - 2 ^ 32 else u

/-- `x = atoi(optarg); if (x <= 0) usage()`, `/repo/src/dnstable_lookup.c:357-359,377-379,385-387`. -/
def positiveArg (s : Bytes) : Out Nat := if atoi s ≤ 0 then .fail else .ok (atoi s).toNat

/-- The `switch` in the option loop, `/repo/src/dnstable_lookup.c:321-394`. -/
def readOption (T : TimeLibs) (v : CmdVars) (e : OptEvent) : Out CmdVars :=
  if e.ch = 97 then do
    let t ← timeOption T e.now e.arg
    .ok { v with times := { v.times with firstAfter := t } }
  else if e.ch = 65 then do
    let t ← timeOption T e.now e.arg
    .ok { v with times := { v.times with lastAfter := t } }
  else if e.ch = 98 then do
    let t ← timeOption T e.now e.arg
    .ok { v with times := { v.times with lastBefore := t } }
  else if e.ch = 66 then do
    let t ← timeOption T e.now e.arg
    .ok { v with times := { v.times with firstBefore := t } }
  else if e.ch = 99 then .ok { v with strict := true }
  else if e.ch = 67 then .ok { v with caseSensitive := true }
  else if e.ch = 105 then do
    let n ← positiveArg e.arg
    .ok { v with interval := n }
  else if e.ch = 106 then .ok { v with flags := { v.flags with json := true } }
  else if e.ch = 74 then .ok { v with flags := { v.flags with jsonRfc := true } }
  else if e.ch = 110 then .ok { v with flags := { v.flags with count := true } }
  else if e.ch = 82 then .ok { v with flags := { v.flags with addRaw := true } }
  else if e.ch = 115 then .ok { v with flags := { v.flags with stats := v.flags.stats + 1 } }
  else if e.ch = 116 then do
    let n ← positiveArg e.arg
    .ok { v with timeout := n }
  else if e.ch = 117 then .ok { v with aggregate := false }
  else if e.ch = 79 then do
    let n ← positiveArg e.arg
    .ok { v with offset := n }
  else .fail

/-- The option loop, `/repo/src/dnstable_lookup.c:320-395`. -/
def readOptions (T : TimeLibs) : CmdVars → List OptEvent → Out CmdVars
  | v, [] => .ok v
  | v, e :: es => do
    let v ← readOption T v e
    readOptions T v es

/-- The variables set by the arguments, `/repo/src/dnstable_lookup.c:302-306,316`. -/
structure CmdArgs where
  qType : QType
  owner : Option Bytes := none
  rrtype : Option Bytes := none
  bailiwick : Option Bytes := none
  rdata : Option Bytes := none
  version : Option Bytes := none
deriving DecidableEq, Repr

/-- The arguments, `/repo/src/dnstable_lookup.c:400-444`. -/
def readArgs (argv : List Bytes) : Out CmdArgs :=
  let argc := argv.length
  if argc < 1 then .fail
  else if argv[0]? = some (lit "rrset") then
    if argc < 2 || argc > 4 then .fail
    else if 47 ∈ (argv[1]?).getD [] then .fail
    else
      .ok { qType := .rrset, owner := argv[1]?,
            rrtype := if argc ≥ 3 then argv[2]? else none,
            bailiwick := if argc ≥ 4 then argv[3]? else none }
  else if argv[0]? = some (lit "rdata") then do
    let t ←
      if argc = 3 && argv[1]? = some (lit "ip") then Out.ok QType.rdataIp
      else if (argc = 3 || argc = 4) && argv[1]? = some (lit "raw") then .ok .rdataRaw
      else if (argc = 3 || argc = 4) && argv[1]? = some (lit "name") then .ok .rdataName
      else .fail
    .ok { qType := t, rdata := argv[2]?, rrtype := if argc = 4 then argv[3]? else none }
  else if argv[0]? = some (lit "version") then
    if argc > 2 then .fail
    else .ok { qType := .version, version := if argc = 2 then argv[1]? else none }
  else if argv[0]? = some (lit "time_range") then
    if argc > 1 then .fail
    else .ok { qType := .timeRange }
  else .fail

/-- The checks of options against each other and the query type, `/repo/src/dnstable_lookup.c:446-471`: they make
sense. -/
def sensible (t : QType) (v : CmdVars) : Bool :=
  if (t = .version || t = .timeRange) && v.offset ≠ 0 then false
  else if (t = .version || t = .timeRange) && v.flags.addRaw then false
  else if v.flags.count && (v.flags.jsonRfc || v.flags.json || v.flags.addRaw) then false
  else if v.flags.jsonRfc && v.flags.json then false
  else if !(v.flags.jsonRfc || v.flags.json) && v.flags.addRaw then false
  else true

/-- The environment variables, `/repo/src/dnstable_lookup.c:472-473`. -/
structure CmdEnv where
  fname : Option Bytes := none
  setfile : Option Bytes := none
deriving DecidableEq, Repr

/-- What the reader is made for: a table or a set file, `/repo/src/dnstable_lookup.c:480-493`. -/
inductive Store where
  | file (f : Src)
  | setfile (path : Bytes)

/-- Opening, `/repo/src/dnstable_lookup.c:474-494`; `opens` is `mtbl_reader_init`. -/
def openStore (opens : Bytes → Option Src) (E : CmdEnv) (aggregate : Bool) : Out Store :=
  match E.fname, E.setfile with
  | none, none => .fail
  | some _, some _ => .fail
  | none, some path => .ok (.setfile path)
  | some path, none =>
    if aggregate = false then .fail
    else
      match opens path with
      | none => .fail
      | some f => .ok (.file f)

/-- `if (res != dnstable_res_success) exit(EXIT_FAILURE)` after a setter,
`/repo/src/dnstable_lookup.c:499-543,582-588,618-622`. -/
def must (r : Out (Query × Bool)) : Out Query := do
  let r ← r
  if r.2 then .ok r.1 else .fail

/-- The setters for the arguments, `/repo/src/dnstable_lookup.c:499-543`. -/
def setArgs (A : Arith) (L : Libs) (a : CmdArgs) (q : Query) : Out Query :=
  if a.qType = .rrset then do
    let q ← must (applySetter A L q (.data a.owner))
    let q ← must (applySetter A L q (.rrtype a.rrtype))
    must (applySetter A L q (.bailiwick a.bailiwick))
  else if a.qType = .rdataIp || a.qType = .rdataName || a.qType = .rdataRaw then do
    let q ← must (applySetter A L q (.data a.rdata))
    if a.rrtype ≠ none then must (applySetter A L q (.rrtype a.rrtype)) else .ok q
  else if a.qType = .version then must (applySetter A L q (.data a.version))
  else .ok q

/-- `if (t != 0) dnstable_query_set_filter_parameter(…)`, `/repo/src/dnstable_lookup.c:561-579`; the result is not
looked at. -/
def setTime (q : Query) (pType t : Nat) : Query :=
  if t ≠ 0 then (setFilterParameter q pType (some t) 8).1 else q

/-- The filter parameters, `/repo/src/dnstable_lookup.c:545-580`. -/
def setTimes (v : CmdVars) (q : Query) : Query :=
  if q.qType ≠ .version && q.qType ≠ .timeRange then
    let t := if v.strict then strictTimes v.times else v.times
    setTime (setTime (setTime (setTime q 1 t.firstAfter) 0 t.firstBefore) 3 t.lastAfter) 2 t.lastBefore
  else q

/-- The offset, `/repo/src/dnstable_lookup.c:582-588`. -/
def setOffset (A : Arith) (L : Libs) (n : Nat) (q : Query) : Out Query :=
  if n ≠ 0 then must (applySetter A L q (.offset n)) else .ok q

/-- The query without its time limits, `/repo/src/dnstable_lookup.c:495-588,618-622`. -/
def buildQuery (A : Arith) (L : Libs) (v : CmdVars) (a : CmdArgs) : Out Query := do
  let q ← queryInit a.qType
  let q ← must (applySetter A L q (.caseSensitive v.caseSensitive))
  let q ← setArgs A L a q
  let q ← setOffset A L v.offset (setTimes v q)
  must (applySetter A L q (.aggregated v.aggregate))

/-- What `main` has got at `/repo/src/dnstable_lookup.c:588`. -/
structure Started where
  store : Store
  query : Query
  timeout : Nat
  interval : Nat
  flags : CliFlags

/-- `main`, `/repo/src/dnstable_lookup.c:295-622`, up to the time limits, which `lookupRun` sets. -/
def lookupStart (A : Arith) (L : Libs) (T : TimeLibs) (opens : Bytes → Option Src) (E : CmdEnv)
    (opts : List OptEvent) (argv : List Bytes) : Out Started := do
  let v ← readOptions T {} opts
  let a ← readArgs argv
  if sensible a.qType v then do
    let s ← openStore opens E v.aggregate
    let q ← buildQuery A L v a
    .ok { store := s, query := q, timeout := v.timeout, interval := v.interval, flags := v.flags }
  else .fail

end Verif
