import Verif.Model.Setters
import Verif.Model.TextForm

/-!
# What `dnstable_lookup` does with the answers (`/repo/src/dnstable_lookup.c`)

From the time limits of a query on: how long to wait, which entries to print.  The statistics written to
the standard error stream are in `Model.StatsText`; here is only the clock reading made for them.  The command line is the subject of
`Model.Lookup` and `Model.ParseTime`.
-/

namespace Verif

/-- The options that concern the output, `/repo/src/dnstable_lookup.c:34-37,40`. -/
structure CliFlags where
  /-- `-j` -/
  json : Bool := false
  /-- `-J` -/
  jsonRfc : Bool := false
  /-- `-R` -/
  addRaw : Bool := false
  /-- `-n` -/
  count : Bool := false
  /-- `-s`, how many times -/
  stats : Nat := 0
deriving DecidableEq, Repr

/-- What `print_entry`, `/repo/src/dnstable_lookup.c:45-74`, depends on besides the entry: see `Model.TextForm` and
`Model.Json`. -/
structure Printer where
  numbuf : Bytes
  gmtime : Int → Option Tm
  locale : Locale
  wdns : Wdns

/-- The string made by `print_entry`, `/repo/src/dnstable_lookup.c:53-65`; a new formatter is made by
`dnstable_formatter_init`, `/repo/dnstable/entry.c:533-542`. -/
def entryString (F : CliFlags) (v : Printer) (e : Entry) : Out Bytes :=
  if F.jsonRfc || F.json then
    entryFormat v.numbuf v.gmtime v.locale v.wdns
      (((({} : Formatter).setOutputFormat true).setDateFormat F.json).setRawRdata F.addRaw) e
  else entryToText v.gmtime v.locale v.wdns e

/-- `print_entry`, `/repo/src/dnstable_lookup.c:45-74`: what it writes to the standard output. -/
def printEntry (F : CliFlags) (v : Printer) (e : Entry) : Out Bytes :=
  if F.count then .ok []
  else
    match entryString F v e with
    | .fault f => .fault f
    | .fail => .fault .abort
    | .ok s =>
      if (cstr s).length > 0 then
        .ok (cstr s ++ if F.jsonRfc || F.json || e.eType == tRRSET then [10] else [])
      else .ok []

/-- `my_gettime(CLOCK_MONOTONIC, …)`, `/repo/libmy/my_time.h:10-16`. -/
def gettime (w : World) : Timespec × World := (w.clock w.tick, { w with tick := w.tick + 1 })

/-- `g_deadline` and `g_interval`, `/repo/src/dnstable_lookup.c:42-43`. -/
structure CliTimers where
  deadline : Timespec := ⟨0, 0⟩
  interval : Timespec := ⟨0, 0⟩
deriving DecidableEq, Repr

/-- `if (timeout != 0) …`, `/repo/src/dnstable_lookup.c:590-598`. -/
def startTimeout (timeout : Nat) (q : Query) (w : World) : CliTimers × Query × World :=
  if timeout ≠ 0 then
    let (now, w) := gettime w
    let deadline : Timespec := { now with sec := now.sec + timeout }
    ({ deadline := deadline }, (setDeadlineParam q (some deadline)).1, w)
  else ({}, q, w)

/-- `if (interval != 0) …`, `/repo/src/dnstable_lookup.c:600-613`. -/
def startInterval (interval : Nat) (T : CliTimers) (q : Query) (w : World) : CliTimers × Query × World :=
  if interval ≠ 0 then
    let T := { T with interval := ⟨interval, 0⟩ }
    let (now, w) := gettime w
    let next := timespecAdd T.interval now
    if T.deadline.sec = 0 || !timespecGe next T.deadline then (T, (setDeadlineParam q (some next)).1, w)
    else (T, q, w)
  else (T, q, w)

/-- `if (g_stats == 0) g_stats ++`, within the same block, `/repo/src/dnstable_lookup.c:615`. -/
def intervalStats (interval : Nat) (F : CliFlags) : CliFlags :=
  if interval ≠ 0 && F.stats = 0 then { F with stats := 1 } else F

/-- The variables of `do_dump`, `/repo/src/dnstable_lookup.c:146-150`, the query object it sets deadlines in,
and what it has written to the standard output. -/
structure DumpSt (B : Built) where
  iter : QSt B
  lim : Limits
  world : World
  count : Nat := 0
  out : Bytes := []

/-- Where `do_dump` has got to: still in the loops, out of them with the result of the last call, or not
properly ended; `/repo/src/dnstable_lookup.c:154-191`. -/
inductive Dump (B : Built) where
  | running (d : DumpSt B)
  | ended (r : QRes) (d : DumpSt B)
  | fault (f : Fault)

/-- The clock is read for the statistics, `/repo/src/dnstable_lookup.c:164-176`. -/
def statsReading (F : CliFlags) (w : World) : World := if F.stats > 0 then (gettime w).2 else w

/-- The deadline of the next interval, `/repo/src/dnstable_lookup.c:181-187`; `none` to stop. -/
def nextDeadline (T : CliTimers) (now : Timespec) : Option Timespec :=
  if T.deadline.sec ≠ 0 && !timespecGe T.deadline now then none
  else
    let next := timespecAdd T.interval now
    some (if T.deadline.sec ≠ 0 && !timespecGe T.deadline next then T.deadline else next)

/-- The loops of `do_dump`, `/repo/src/dnstable_lookup.c:154-191`, for `n` calls of `dnstable_iter_next`. -/
def dumpLoop (F : CliFlags) (v : Printer) (T : CliTimers) (q : Query) (B : Built) : Nat → DumpSt B → Dump B
  | 0, d => .running d
  | n + 1, d =>
    match queryNext { q with lim := d.lim } B d.iter d.world with
    | (.fault f, _, _) => .fault f
    | (.entry e, s, w) =>
      match printEntry F v e with
      | .ok t =>
        dumpLoop F v T q B n
          { d with iter := s, world := w, count := (d.count + 1) % 2 ^ 64, out := d.out ++ t }
      | .fail => .fault .abort
      | .fault f => .fault f
    | (.failure, s, w) => .ended .failure { d with iter := s, world := statsReading F w }
    | (.timeout, s, w) =>
      let w := statsReading F w
      if T.interval.sec = 0 then .ended .timeout { d with iter := s, world := w }
      else
        let (now, w) := gettime w
        match nextDeadline T now with
        | none => .ended .timeout { d with iter := s, world := w }
        | some next =>
          dumpLoop F v T q B n
            { d with iter := s, world := w,
                     lim := (setDeadlineParam { q with lim := d.lim } (some next)).1.lim }

/-- The last lines written to the standard error stream, `/repo/src/dnstable_lookup.c:193-197`. -/
def farewell (F : CliFlags) (v : Printer) (r : QRes) (count : Nat) : Bytes :=
  if !F.json && !F.jsonRfc then
    (if r = .timeout then lit ";;; timed out\n" else []) ++
      (lit ";;; Dumped " ++ v.locale.grouped count ++ lit " entries.\n")
  else []

/-- The query with the time limits of the command line, `/repo/src/dnstable_lookup.c:590-616`. -/
def limitQuery (timeout interval : Nat) (q : Query) (w : World) : CliTimers × Query × World :=
  let (T, q, w) := startTimeout timeout q w
  startInterval interval T q w

/-- `dnstable_lookup` from the time limits to the `n`-th call of `dnstable_iter_next`,
`/repo/src/dnstable_lookup.c:590-630,143-191`: the query `q` has been made and `p` is its plan. -/
def lookupRun (F : CliFlags) (v : Printer) (timeout interval : Nat) (q : Query) (S : Sources) (p : Plan)
    (n : Nat) (w : World) : Dump (assemble (limitQuery timeout interval q w).2.1 S p) :=
  let F := intervalStats interval F
  let x := limitQuery timeout interval q w
  let q := x.2.1
  let B := assemble q S p
  dumpLoop F v x.1 q B n { iter := B.start, lim := q.lim, world := (gettime x.2.2).2 }

end Verif
