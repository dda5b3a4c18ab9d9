import Verif.Model.LookupRun
import Verif.Model.Stats
import Verif.Model.Util

/-!
# The statistics of `dnstable_lookup` (`/repo/src/dnstable_lookup.c:76-198`)

What options `-s` and `-i` make the program write to the standard error stream.  The counters are read through
`dnstable_iter_get_count` (`Model.Stats`); what this reads at a given time is a parameter of the functions here.
-/

namespace Verif

/-- `printf` conversion `%-*s`, `/repo/src/dnstable_lookup.c:101,135,173`. -/
def padRight (width : Nat) (s : Bytes) : Bytes := s ++ List.replicate (width - s.length) 32

/-- `fprintf(stderr, "%-*s : %"PRIu64"\n", …)`, `/repo/src/dnstable_lookup.c:101,135,173`. -/
def countLine (width : Nat) (label : Bytes) (n : Nat) : Bytes :=
  padRight width label ++ lit " : " ++ decimal n ++ [10]

/-- The strings `dnstable_stat_stage_to_str` or `dnstable_stat_category_to_str` returns for 0, 1, ... until it returns
`NULL` (loops at `/repo/src/dnstable_lookup.c:87,95,121-122`), with the numbers; `n` bounds the number of steps. -/
def namesFrom (tab : List Bytes) : Nat → Nat → List (Nat × Bytes)
  | 0, _ => []
  | n + 1, i =>
    match statToStr tab i with
    | none => []
    | some s => (i, s) :: namesFrom tab n (i + 1)

/-- The stages in a loop, `/repo/src/dnstable_lookup.c:95,121`. -/
def stageLoop : List (Nat × Bytes) := namesFrom stageStrs 16 0

/-- The categories in a loop, `/repo/src/dnstable_lookup.c:87,122`. -/
def categoryLoop : List (Nat × Bytes) := namesFrom categoryStrs 16 0

/-- The loop over stages in `do_dump_stats_stage`, `/repo/src/dnstable_lookup.c:95-100`.  `found` is the variable
`exists`, which keeps its value if the call does not set it; `cnt0` is the uninitialised `cnt`. -/
def totalLoop (it : IterStats) (cat cnt0 : Nat) : List (Nat × Bytes) → Bool → Nat → Nat × Bool
  | [], found, total => (total, found)
  | (stage, _) :: rest, found, total =>
    let r := iterGetCount (some it) stage cat found (some cnt0)
    totalLoop it cat cnt0 rest r.found (if r.found then (total + r.count) % 2 ^ 64 else total)

/-- The first round of `do_dump_stats_stage`, `/repo/src/dnstable_lookup.c:86-93`: the longest name. -/
def longestName : List (Nat × Bytes) → Nat → Nat
  | [], w => w
  | (_, s) :: rest, w => longestName rest (if s.length > w then s.length else w)

/-- The second round of `do_dump_stats_stage`, `/repo/src/dnstable_lookup.c:86-103`. -/
def summaryLines (it : IterStats) (cnt0 width : Nat) : List (Nat × Bytes) → Bool → Bytes
  | [], _ => []
  | (cat, s) :: rest, found =>
    let r := totalLoop it cat cnt0 stageLoop found 0
    countLine width s r.1 ++ summaryLines it cnt0 width rest r.2

/-- `do_dump_stats_stage`, `/repo/src/dnstable_lookup.c:76-106`: what it writes and what it returns. -/
def statsSummary (it : IterStats) (found0 : Bool) (cnt0 : Nat) : Bytes × Nat :=
  let width := longestName categoryLoop 0
  ([10] ++ summaryLines it cnt0 width categoryLoop found0 ++ [10], width)

/-- The pairs of stages and categories in the loops of `do_dump_stats_category`,
`/repo/src/dnstable_lookup.c:121-122`. -/
def statPairs : List ((Nat × Bytes) × Nat × Bytes) :=
  stageLoop.flatMap fun s => categoryLoop.map fun c => (s, c)

/-- The first round of `do_dump_stats_category`, `/repo/src/dnstable_lookup.c:120-131`; `found` and `cnt` are
variables of the function. -/
def detailWidth (it : IterStats) : List ((Nat × Bytes) × Nat × Bytes) → Bool → Nat → Nat → Nat × Bool × Nat
  | [], found, cnt, w => (w, found, cnt)
  | ((stage, sstg), cat, scat) :: rest, found, cnt, w =>
    let r := iterGetCount (some it) stage cat found (some cnt)
    if !r.found then detailWidth it rest r.found r.count w
    else
      let l := scat.length + sstg.length + 1
      detailWidth it rest r.found r.count (if l > w then l else w)

/-- `snprintf(tmpbuf, sizeof(tmpbuf), …)`, `/repo/src/dnstable_lookup.c:134`: 127 bytes and a NUL. -/
def snprintf128 (s : Bytes) : Bytes := s.take 127

/-- The second round of `do_dump_stats_category`, `/repo/src/dnstable_lookup.c:120-137`. -/
def detailLines (it : IterStats) (width : Nat) : List ((Nat × Bytes) × Nat × Bytes) → Bool → Nat → Bytes
  | [], _, _ => []
  | ((stage, sstg), cat, scat) :: rest, found, cnt =>
    let r := iterGetCount (some it) stage cat found (some cnt)
    if !r.found then detailLines it width rest r.found r.count
    else
      countLine width (snprintf128 (sstg ++ 32 :: scat)) (r.count % 2 ^ 64) ++ detailLines it width rest r.found r.count

/-- `do_dump_stats_category`, `/repo/src/dnstable_lookup.c:108-141`: what it writes and what it returns. -/
def statsDetail (it : IterStats) (found0 : Bool) (cnt0 : Nat) : Bytes × Nat :=
  let r := detailWidth it statPairs found0 cnt0 0
  ([10] ++ detailLines it r.1 statPairs r.2.1 r.2.2 ++ [10], r.1)

/-- `my_timespec_sub(a, b)`, `/repo/libmy/my_time.h:42-51`: the new value of `*b`. -/
def timespecSub (a b : Timespec) : Timespec :=
  let sec := b.sec - a.sec
  let nsec := b.nsec - a.nsec
  if nsec < 0 then ⟨sec - 1, nsec + 1000000000⟩ else ⟨sec, nsec⟩

/-- `printf` conversion `%ld`, `/repo/src/dnstable_lookup.c:173`. -/
def signed (i : Int) : Bytes := if i < 0 then 45 :: decimal i.natAbs else decimal i.natAbs

/-- `printf` conversion `%09ld` of a number that is not negative, `/repo/src/dnstable_lookup.c:173`. -/
def zeroPadded9 (n : Nat) : Bytes := List.replicate (9 - (decimal n).length) 48 ++ decimal n

/-- The statistics written by `do_dump` when no more entries come, `/repo/src/dnstable_lookup.c:164-176`: the clock read
`start` at first and reads `now`.  (Line 166 tests for `-ss`.) -/
def statsText (F : CliFlags) (it : IterStats) (found0 : Bool) (cnt0 : Nat) (start now : Timespec) (count : Nat) : Bytes :=
  if F.stats > 0 then
    let r := if F.stats > 1 then statsDetail it found0 cnt0 else statsSummary it found0 cnt0
    let elapsed := timespecSub start now
    r.1 ++ countLine r.2 (lit "entries") count ++
      (padRight r.2 (lit "elapsed") ++ lit " : " ++ signed elapsed.sec ++ [46] ++ zeroPadded9 elapsed.nsec.toNat ++
        lit "s" ++ [10])
  else []

/-- A time at which `do_dump` writes its statistics: the world, the variable `count`
(`/repo/src/dnstable_lookup.c:164`). -/
structure StatsMoment where
  world : World
  count : Nat

/-- The times at which the loops of `do_dump`, `/repo/src/dnstable_lookup.c:154-191`, come to line 164 in `n` calls of
`dnstable_iter_next` (see `dumpLoop`). -/
def dumpMoments (F : CliFlags) (v : Printer) (T : CliTimers) (q : Query) (B : Built) : Nat → DumpSt B → List StatsMoment
  | 0, _ => []
  | n + 1, d =>
    match queryNext { q with lim := d.lim } B d.iter d.world with
    | (.fault _, _, _) => []
    | (.entry e, s, w) =>
      match printEntry F v e with
      | .ok t =>
        dumpMoments F v T q B n
          { d with iter := s, world := w, count := (d.count + 1) % 2 ^ 64, out := d.out ++ t }
      | _ => []
    | (.failure, _, w) => [⟨w, d.count⟩]
    | (.timeout, s, w) =>
      ⟨w, d.count⟩ ::
        (let w := statsReading F w
         if T.interval.sec = 0 then []
         else
           let (now, w) := gettime w
           match nextDeadline T now with
           | none => []
           | some next =>
             dumpMoments F v T q B n
               { d with iter := s, world := w,
                        lim := (setDeadlineParam { q with lim := d.lim } (some next)).1.lim })

/-- The last lines, if the loops have been left (`/repo/src/dnstable_lookup.c:193-197`). -/
def lastLines (F : CliFlags) (v : Printer) {B : Built} : Dump B → Bytes
  | .ended r d => farewell F v r d.count
  | _ => []

/-- The standard error stream of `dnstable_lookup` from the time limits to the `n`-th call of `dnstable_iter_next`,
`/repo/src/dnstable_lookup.c:590-630,143-198` (see `lookupRun`).  `read` is what `dnstable_iter_get_count` reads;
`found0` and `cnt0` are uninitialised variables. -/
def lookupErrors (F : CliFlags) (v : Printer) (timeout interval : Nat) (q : Query) (S : Sources) (p : Plan)
    (read : World → IterStats) (found0 : Bool) (cnt0 : Nat) (n : Nat) (w : World) : Bytes :=
  let G := intervalStats interval F
  let x := limitQuery timeout interval q w
  let B := assemble x.2.1 S p
  let start := (gettime x.2.2).1
  (dumpMoments G v x.1 x.2.1 B n { iter := B.start, lim := x.2.1.lim, world := (gettime x.2.2).2 }).flatMap
      (fun m => statsText G (read m.world) found0 cnt0 start (gettime m.world).1 m.count) ++
    lastLines G v (lookupRun F v timeout interval q S p n w)

end Verif
