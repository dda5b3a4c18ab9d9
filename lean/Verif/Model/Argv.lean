import Verif.Model.Dump

/-!
# The command line of `dnstable_dump` (`/repo/libmy/argv.c`, `/repo/src/dnstable_dump.c:46-117,161-227`)

`argv_process` with the types of options that `dnstable_dump` has: flags (`ARGV_BOOL`), a file name (`ARGV_CHAR_P`) and
the separators `ARGV_ONE_OF`.  Strings have no NUL.  What is written to the standard error stream is left out.
Not modelled, since the array has none: optional arguments (`ARGV_MAYBE`), arrays, other types, mandatory flags.
-/

namespace Verif

/-- The program ends: `exit(0)`, `exit(1)` (`argv_error_code`, `/repo/libmy/argv_loc.h:88`), or undefined behaviour. -/
inductive ArgStop where
  | exit (success : Bool)
  | fault (f : Fault)
deriving DecidableEq, Repr

/-- A step of the argument processing: `argv_interactive` is set (`/repo/libmy/argv.c:60`), so most errors end the
program. -/
abbrev ArgM := Except ArgStop

/-- The settings, with their initial values, `/repo/libmy/argv.c:83-137`. -/
structure ArgConfig where
  close : Bool := true
  lastToggle : Bool := false
  multi : Bool := true
  env : Bool := true
  envAfter : Bool := false
deriving DecidableEq, Repr

/-- `ar_type` of an entry: `ARGV_BOOL`, `ARGV_CHAR_P` (`/repo/libmy/argv.h:153-157`), or 0 in separators. -/
inductive ArgType where
  | none | bool | string
deriving DecidableEq, Repr

/-- `argv_t` (`/repo/libmy/argv.h:79-86`) with the flag `ARGV_FLAG_USED` and the variable it points to. -/
structure ArgEntry where
  short : UInt8
  long : Option Bytes := none
  type : ArgType := .none
  used : Bool := false
  on : Bool := false
  text : Option Bytes := none
deriving DecidableEq, Repr

/-- `ARGV_LAST`, `/repo/libmy/argv.h:113`. -/
def argLast : UInt8 := 255
/-- `ARGV_MAND`, `/repo/libmy/argv.h:121`. -/
def argMand : UInt8 := 254
/-- `ARGV_OR`, `/repo/libmy/argv.h:135`. -/
def argOr : UInt8 := 252
/-- `ARGV_ONE_OF`, `ARGV_XOR`, `/repo/libmy/argv.h:144-145`. -/
def argXor : UInt8 := 251

/-- What `argv_process` works on (`/repo/libmy/argv.c:3119-3240`): the array, the queue of entries that wait for a value
(`queue_list` up to `queue_head`; `none` is the NULL for a file of arguments), `queue_tail`, the number of elements
allocated for the queue, `okay_b`, and the standard input if it has not been read. -/
structure ArgState where
  grid : List ArgEntry
  queue : List (Option Nat) := []
  tail : Nat := 0
  room : Nat
  okay : Bool := true
  stdin : Option Bytes
deriving DecidableEq, Repr

/-- `*okay_bp = ARGV_FALSE`, such as at `/repo/libmy/argv.c:2336`. -/
def ArgState.bad (s : ArgState) : ArgState := { s with okay := false }

/-- `queue_list[*queue_head_p] = p; (*queue_head_p)++`, `/repo/libmy/argv.c:2364-2365,2542-2543`. -/
def enqueue (s : ArgState) (p : Option Nat) : ArgM ArgState :=
  if s.queue.length < s.room then .ok { s with queue := s.queue ++ [p] } else .error (.fault .oobWrite)

/-- The characters that mean true, `/repo/libmy/argv.c:1263-1265`. -/
def trueChars : List UInt8 := [116, 84, 121, 89, 49]

/-- `string_to_value`, `/repo/libmy/argv.c:1199-1463`, of the entry `i`; `none` is a NULL argument. -/
def stringToValue (s : ArgState) (i : Nat) (arg : Option Bytes) : ArgState :=
  match s.grid[i]? with
  | none => s.bad
  | some e =>
    match e.type, arg with
    | .none, _ => s.bad
    | .bool, none => { s with grid := s.grid.set i { e with on := true } }
    | .bool, some t => { s with grid := s.grid.set i { e with on := t.head?.any trueChars.contains } }
    | .string, t => { s with grid := s.grid.set i { e with text := t } }

/-- An `ARGV_OR` or `ARGV_XOR`, `/repo/libmy/argv.c:1869-1870`. -/
def ArgEntry.isOr (e : ArgEntry) : Bool := e.short == argOr || e.short == argXor

/-- The loop of `check_or` over the entries below, given backwards, `/repo/libmy/argv.c:1868-1877`. -/
def orBelow : List ArgEntry → Bool
  | e1 :: e2 :: rest => if !e1.isOr then false else if e2.used then true else orBelow rest
  | _ => false

/-- The loop of `check_or` over the entries above, `/repo/libmy/argv.c:1882-1894`.  There may be no entry to look at: then it
reads beyond the array. -/
def orAbove : List ArgEntry → ArgM Bool
  | e1 :: e2 :: rest =>
    if e2.short == argLast || e1.short == argLast then .ok false
    else if !e1.isOr then .ok false
    else if e2.used then .ok true
    else orAbove rest
  | _ => .error (.fault .oobRead)

/-- `check_or`, `/repo/libmy/argv.c:1863-1933`: whether there is a conflict. -/
def checkOr (g : List ArgEntry) (i : Nat) : ArgM Bool :=
  if orBelow (g.take i).reverse then .ok true else orAbove (g.drop (i + 1))

/-- `do_arg`, `/repo/libmy/argv.c:2302-2367`. -/
def doArg (c : ArgConfig) (s : ArgState) (i : Nat) (close : Option Bytes) : ArgM ArgState := do
  match s.grid[i]? with
  | none => .error (.fault .oobRead)
  | some e =>
    let s := if !c.multi && e.used then s.bad else s
    let s := { s with grid := s.grid.set i { e with used := true } }
    let conflict ← checkOr s.grid i
    let s := if conflict then s.bad else s
    if c.close && close.isSome then pure (stringToValue s i close)
    else if e.type == .bool then pure (stringToValue s i none)
    else enqueue s (some i)

/-- `strchr(*arg_p, '=')` and the cut there, `/repo/libmy/argv.c:2469-2476,2654-2661`: the argument and the value. -/
def cutEquals (c : ArgConfig) (a : Bytes) : Bytes × Option Bytes :=
  if c.close && a.contains 61 then (a.takeWhile (· != 61), some ((a.dropWhile (· != 61)).drop 1)) else (a, none)

/-- The entries whose long name begins with the given text, `/repo/libmy/argv.c:2494-2522`. -/
def longMatches (g : List ArgEntry) (name : Bytes) : List Nat :=
  (List.range g.length).filter fun i => (g[i]?).any fun e => e.short != argLast && e.long.any name.isPrefixOf

/-- The long options that end the program with success, `/repo/libmy/argv.c:2547-2631`. -/
def infoNames : List Bytes :=
  [lit "usage", lit "help", lit "usage-short", lit "usage-long", lit "usage-all", lit "version", lit "argv-display"]

/-- A long option, `/repo/libmy/argv.c:2461-2642`; `file` is `file_args`. -/
def longOption (c : ArgConfig) (file : ArgState → Bytes → ArgM ArgState) (s : ArgState) (a : Bytes) : ArgM ArgState :=
  let (a, close) := cutEquals c a
  let name := a.drop 2
  if name.isEmpty then .ok s.bad
  else
    match longMatches s.grid name with
    | [i] => doArg c s i close
    | _ :: _ :: _ => .ok s.bad
    | [] =>
      if name.isPrefixOf (lit "argv-file") then
        match close with
        | some path => file s path
        | none => enqueue s none
      else if infoNames.any name.isPrefixOf then .error (.exit true)
      else .ok s.bad

/-- `is_number`, `/repo/libmy/argv.c:2382-2404`. -/
def isNumber (a : Bytes) : Bool := !a.isEmpty && a.all (lit "0123456789+-.").contains

/-- The entry with a short name, `/repo/libmy/argv.c:2679-2684`. -/
def shortMatch (g : List ArgEntry) (ch : UInt8) : Option Nat :=
  (List.range g.length).find? fun i => (g[i]?).any fun e => e.short != argLast && e.short == ch

/-- The loop over the letters of a short option, `/repo/libmy/argv.c:2676-2746`; `first` says that it is the first one of the
argument `a`.  A number could be the value of a queued entry, whose type is looked up. -/
def shortLetters (c : ArgConfig) (a : Bytes) (close : Option Bytes) : Bool → ArgState → Bytes → ArgM ArgState
  | _, s, [] => .ok s
  | first, s, ch :: chs =>
    match shortMatch s.grid ch with
    | some i => do
      let s ← doArg c s i close
      shortLetters c a close false s chs
    | none =>
      if ch == 63 then .error (.exit true)
      else if first && isNumber a && decide (s.tail < s.queue.length) && s.queue[s.tail]? == some none then
        .error (.fault .nullDeref)
      else shortLetters c a close false s.bad chs

/-- A short option, `/repo/libmy/argv.c:2645-2749`. -/
def shortOption (c : ArgConfig) (s : ArgState) (a : Bytes) : ArgM ArgState :=
  let (a, close) := cutEquals c a
  if (a.drop 1).isEmpty then .ok s.bad else shortLetters c a close true s (a.drop 1)

/-- An argument that is no option, `/repo/libmy/argv.c:2751-2809`: the value of an entry that waits for one, or the mandatory
argument. -/
def plainWord (file : ArgState → Bytes → ArgM ArgState) (s : ArgState) (a : Bytes) : ArgM ArgState :=
  match s.queue[s.tail]? with
  | some p =>
    let s := { s with tail := s.tail + 1 }
    match p with
    | none => file s a
    | some i => .ok (stringToValue s i (some a))
  | none =>
    match (List.range s.grid.length).find? fun i => (s.grid[i]?).any fun e => e.short == argMand && !e.used with
    | some i =>
      let s := stringToValue s i (some a)
      match s.grid[i]? with
      | none => .ok s
      | some e => .ok { s with grid := s.grid.set i { e with used := true } }
    | none => .ok s.bad

/-- The loop of `do_list`, `/repo/libmy/argv.c:2435-2818`; `last` is `last_arg_b`. -/
def doList (c : ArgConfig) (file : ArgState → Bytes → ArgM ArgState) : Bool → ArgState → List Bytes → ArgM ArgState
  | _, s, [] => .ok s
  | last, s, a :: as =>
    if a == lit "--" && (!last || c.lastToggle) then doList c file (!last) s as
    else do
      let s ← (if !last && (lit "--").isPrefixOf a then longOption c file s a
        else if !last && (lit "-").isPrefixOf a && a.length != 1 then shortOption c s a
        else plainWord file s a)
      doList c file last s as

/-- The next line as `fgets` gives it with room for `n` bytes and the NUL, and what is left
(`/repo/libmy/argv.c:2217`, `FILE_LINE_SIZE` at `/repo/libmy/argv_loc.h:73`). -/
def fgetsLine : Nat → Bytes → Bytes × Bytes
  | 0, t => ([], t)
  | _, [] => ([], [])
  | n + 1, b :: t => if b == 10 then ([b], t) else (b :: (fgetsLine n t).1, (fgetsLine n t).2)

/-- The lines of a file of arguments, without the newline, without what follows a NUL, and without empty ones,
`/repo/libmy/argv.c:2216-2237`. -/
def fileLines : Nat → Bytes → List Bytes
  | 0, _ => []
  | _, [] => []
  | fuel + 1, t =>
    let (line, rest) := fgetsLine 1023 t
    let line := line.takeWhile fun b => b != 10 && b != 0
    if line.isEmpty then fileLines fuel rest else line :: fileLines fuel rest

/-- `file_args`, `/repo/libmy/argv.c:2164-2275`, with the standard input read before or elsewhere; `d` is the number of files
that can be opened at the same time, `files` their contents. -/
def fileArgsRead (c : ArgConfig) (files : Bytes → Option Bytes) : Nat → ArgState → Bytes → ArgM ArgState
  | 0, s, path => if path == lit "-" then .ok s else .error (.exit false)
  | d + 1, s, path =>
    if path == lit "-" then .ok s
    else
      match files path with
      | none => .error (.exit false)
      | some t => doList c (fileArgsRead c files d) false s (fileLines t.length t)

/-- `file_args`, `/repo/libmy/argv.c:2164-2275`; the standard input is empty once it has been read. -/
def fileArgs (c : ArgConfig) (files : Bytes → Option Bytes) : Nat → ArgState → Bytes → ArgM ArgState
  | 0, s, path =>
    if path == lit "-" then
      match s.stdin with
      | none => .ok s
      | some t => doList c (fileArgsRead c files 0) false { s with stdin := none } (fileLines t.length t)
    else .error (.exit false)
  | d + 1, s, path =>
    if path == lit "-" then
      match s.stdin with
      | none => .ok s
      | some t => doList c (fileArgsRead c files (d + 1)) false { s with stdin := none } (fileLines t.length t)
    else
      match files path with
      | none => .error (.exit false)
      | some t => doList c (fileArgs c files d) false s (fileLines t.length t)

/-- `check_mand`, `/repo/libmy/argv.c:2047-2093`: all mandatory arguments are there. -/
def mandOk (g : List ArgEntry) : Bool := g.all fun e => !(e.short == argMand && !e.used)

/-- `check_xor`, `/repo/libmy/argv.c:1954-2000`: an entry of every group is used.  The second argument is `none` between
groups, and says inside of one whether an entry has been used; the first one says so of the entry before. -/
def xorOk : Bool → Option Bool → List ArgEntry → Bool
  | _, _, [] => true
  | before, none, e :: rest =>
    if e.short == argLast then true
    else if e.short == argXor then xorOk false (some before) rest
    else xorOk e.used none rest
  | _, some hit, e :: rest =>
    let hit := hit || e.used
    match rest with
    | x :: rest' =>
      if x.short == argXor then xorOk false (some hit) rest'
      else if hit then xorOk e.used none (x :: rest') else false
    | [] => hit

/-- The pieces between separators that are not empty, as `strsep` gives them, `/repo/libmy/argv.c:405-418,2927-2935`. -/
def pieces (seps : List UInt8) : Bytes → Bytes → List Bytes
  | cur, [] => if cur.isEmpty then [] else [cur]
  | cur, b :: t =>
    if seps.contains b then if cur.isEmpty then pieces seps [] t else cur :: pieces seps [] t
    else pieces seps (cur ++ [b]) t

/-- A setting that is on or off, `/repo/libmy/argv.c:2940-2951`. -/
def onOff (old : Bool) (v : Bytes) : Bool :=
  if [lit "disable", lit "off", lit "no", lit "0"].contains v then false
  else if [lit "enable", lit "on", lit "yes", lit "1"].contains v then true
  else old

/-- A token of `GLOBAL_ARGV`, `/repo/libmy/argv.c:2937-3079`; the settings of messages are left out. -/
def globalToken (c : ArgConfig) (t : Bytes) : ArgConfig :=
  if (lit "close=").isPrefixOf t then { c with close := onOff c.close (t.drop 6) }
  else if (lit "lasttog=").isPrefixOf t then { c with lastToggle := onOff c.lastToggle (t.drop 8) }
  else if (lit "env=").isPrefixOf t then
    let v := t.drop 4
    if v == lit "none" then { c with env := false, envAfter := false }
    else if v == lit "before" then { c with env := true, envAfter := false }
    else if v == lit "after" then { c with env := true, envAfter := true }
    else c
  else if (lit "multi=").isPrefixOf t then
    let v := t.drop 6
    if v == lit "reject" then { c with multi := false }
    else if v == lit "accept" then { c with multi := true }
    else c
  else c

/-- `process_env`, `/repo/libmy/argv.c:2896-3088`. -/
def processEnv (getenv : Bytes → Option Bytes) : ArgConfig :=
  match getenv (lit "GLOBAL_ARGV") with
  | none => {}
  | some v => (pieces (lit " \t,:") [] v).foldl globalToken {}

/-- The name of the program, `/repo/libmy/argv.c:3162-3174`. -/
def programName (argv0 : Bytes) : Bytes := ((argv0.reverse.takeWhile (· != 47)).reverse).take 256

/-- `preprocess_env_args`, `/repo/libmy/argv.c:2844-2877`: the arguments in the variable `ARGV_` with the name of the
program in upper case. -/
def envArgs (getenv : Bytes → Option Bytes) (argv0 : Bytes) : List Bytes :=
  match getenv (lit "ARGV_" ++ (programName argv0).map fun b => if 97 ≤ b && b ≤ 122 then b - 32 else b) with
  | none => []
  | some v => pieces (lit " \t") [] v

/-- What the program is started with and in: `argv` (not empty), the environment, the files that can be opened for
arguments and how many at a time, the standard input.  (`/repo/src/dnstable_dump.c:162`,
`/repo/libmy/argv.c:2173-2178,2864,2911`.) -/
structure ArgWorld where
  argv0 : Bytes
  args : List Bytes
  getenv : Bytes → Option Bytes := fun _ => none
  files : Bytes → Option Bytes := fun _ => none
  depth : Nat := 0
  stdin : Bytes := []

/-- `argv_process`, `/repo/libmy/argv.c:3119-3292`, for an array that `preprocess_array`
(`/repo/libmy/argv.c:1036-1172`) accepts: the array afterwards. -/
def argvProcess (W : ArgWorld) (grid : List ArgEntry) : ArgM (List ArgEntry) := do
  let c := processEnv W.getenv
  let env := envArgs W.getenv W.argv0
  let file := fileArgs c W.files W.depth
  let s : ArgState := { grid := grid, room := 1 + W.args.length + env.length, stdin := some W.stdin }
  let s ← (if c.env && !c.envAfter then doList c file false s env else pure s)
  let s ← doList c file false s W.args
  let s ← (if c.env && c.envAfter then doList c file false s env else pure s)
  if s.okay && mandOk s.grid && s.queue.length ≤ s.tail && xorOk false none s.grid then pure s.grid
  else .error (.exit false)

/-- `args`, `/repo/src/dnstable_dump.c:46-117`. -/
def dumpGrid : List ArgEntry :=
  [{ short := 106, long := some (lit "json"), type := .bool },
   { short := 82, long := some (lit "raw"), type := .bool },
   { short := 114, long := some (lit "rrset_full"), type := .bool },
   { short := argXor },
   { short := 100, long := some (lit "rdata_full"), type := .bool },
   { short := argXor },
   { short := 0, long := some (lit "rrset_names"), type := .bool },
   { short := argXor },
   { short := 0, long := some (lit "rdata_names"), type := .bool },
   { short := argXor },
   { short := 116, long := some (lit "time_range"), type := .bool },
   { short := argXor },
   { short := 118, long := some (lit "version_entries"), type := .bool },
   { short := argXor },
   { short := 115, long := some (lit "source_info_entries"), type := .bool },
   { short := argMand, type := .string },
   { short := argLast }]

/-- The variables of the array, `/repo/src/dnstable_dump.c:33-42`: flags and file name. -/
def gridFlags (g : List ArgEntry) : DumpFlags × Option Bytes :=
  let on := fun (i : Nat) => (g[i]?).any ArgEntry.on
  ({ json := on 0, addRaw := on 1, rrset := on 2, rdata := on 4, rrsetNames := on 6, rdataNames := on 8,
     timeRange := on 10, version := on 12, sourceInfo := on 14 }, (g[15]?).bind ArgEntry.text)

/-- `main`, `/repo/src/dnstable_dump.c:161-227`, up to the `n`-th call of `dnstable_iter_next`; `tables` are the files
that `mtbl_reader_init` opens. -/
def dumpProgram (W : ArgWorld) (tables : Bytes → Option Src) (v : Printer) (n : Nat) (w : World) : DumpState :=
  match argvProcess W dumpGrid with
  | .error (.exit b) => .exit b []
  | .error (.fault f) => .fault f
  | .ok g =>
    match gridFlags g with
    | (F, some name) => dnstableDump F v (tables name) n w
    | (_, none) => .fault .nullDeref

end Verif
