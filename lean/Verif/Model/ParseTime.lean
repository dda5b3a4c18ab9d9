import Verif.Model.Time
import Verif.Model.Setters

/-!
# Time arguments of `dnstable_lookup` (`/repo/src/dnstable_lookup.c:200-262`)

`strptime` and `timegm` belong to libc and are parameters; `strtoll` (C locale) is written out.  `now` is the second
`clock_gettime` reports.
-/

namespace Verif

/-- Calendar functions of libc, as called in `/repo/src/dnstable_lookup.c:210-214`: `strptime format s tt` gives the
rest of the text (`none`: `NULL`) and what it leaves in `*tt`. -/
structure TimeLibs where
  strptime : Bytes → Bytes → Tm → Option Bytes × Tm
  timegm : Tm → Int

/-- The formats tried one after the other, `/repo/src/dnstable_lookup.c:210-213`. -/
def dateFormats : List Bytes := [lit "%F", lit "%F %T", lit "%FT%T", lit "%FT%TZ"]

/-- The conditions of `/repo/src/dnstable_lookup.c:210-213`, sharing `tt`: the first format that takes the whole
text. -/
def tryDates (T : TimeLibs) (s : Bytes) : List Bytes → Tm → Option Tm
  | [], _ => none
  | f :: fs, tt =>
    match T.strptime f s tt with
    | (some [], tt) => some tt
    | (_, tt) => tryDates T s fs tt

/-- `strtoll(s, &endp, 10)`, called at `/repo/src/dnstable_lookup.c:220,231`: the number, the nearest representable
one if it is too large or too small, and the text at `endp`; 0 and the whole text if there is no number. -/
def strtoll (s : Bytes) : Int × Bytes :=
  let t := s.dropWhile isSpace
  let r : Bool × Bytes :=
    match t with
    | c :: u => if c = 45 then (true, u) else if c = 43 then (false, u) else (false, t)
    | [] => (false, t)
  let ds := r.2.takeWhile fun c => 48 ≤ c && c ≤ 57
  if ds = [] then (0, s)
  else
    let n : Nat := ds.foldl (fun a c => 10 * a + (c.toNat - 48)) 0
    let v : Int := if r.1 then -n else n
    (if v < -(2 ^ 63) then -(2 ^ 63) else if v ≥ 2 ^ 63 then 2 ^ 63 - 1 else v,
      r.2.dropWhile fun c => 48 ≤ c && c ≤ 57)

/-- The result of arithmetic on `long long`, `/repo/src/dnstable_lookup.c:237-253`: overflow is undefined. -/
def longLong (x : Int) : Out Int := if x < -(2 ^ 63) ∨ x ≥ 2 ^ 63 then .fault .badShift else .ok x

/-- `ll *= k`, `/repo/src/dnstable_lookup.c:237-246`. -/
def mulLL (ll k : Int) : Out Int := longLong (ll * k)

/-- The `switch`, whose cases fall through to the next, `/repo/src/dnstable_lookup.c:234-252`; `fail` stands for
`return 0`. -/
def scaleUnit (ll : Int) : Option UInt8 → Out Int
  | none => .ok ll
  | some c =>
    if c = 87 ∨ c = 119 then do
      let ll ← mulLL ll 7
      let ll ← mulLL ll 24
      let ll ← mulLL ll 60
      mulLL ll 60
    else if c = 68 ∨ c = 100 then do
      let ll ← mulLL ll 24
      let ll ← mulLL ll 60
      mulLL ll 60
    else if c = 72 ∨ c = 104 then do
      let ll ← mulLL ll 60
      mulLL ll 60
    else if c = 77 ∨ c = 109 then mulLL ll 60
    else if c = 83 ∨ c = 115 then .ok ll
    else .fail

/-- The loop over numbers and units, `/repo/src/dnstable_lookup.c:230-256`, with an iteration bound; `fail` stands
for `return 0`. -/
def unitsLoop : Nat → Bytes → Int → Out Int
  | 0, _, _ => .fault .diverge
  | n + 1, s, total =>
    if s = [] then .ok total
    else
      let r := strtoll s
      if r.1 ≤ 0 then .fail
      else do
        let ll ← scaleUnit r.1 r.2.head?
        let total ← longLong (total + ll)
        unitsLoop n (r.2.drop 1) total

/-- `parse_time`, `/repo/src/dnstable_lookup.c:200-262`. -/
def parseTime (T : TimeLibs) (now : Int) (s : Bytes) : Out Nat :=
  match tryDates T s dateFormats ⟨0, 0, 0, 0, 0, 0⟩ with
  | some tt => .ok (toU64 (T.timegm tt))
  | none =>
    let r := strtoll s
    if r.2 = [] then
      if r.1 < 0 then if r.1 + now < 0 then .ok 0 else .ok (toU64 (r.1 + now))
      else .ok (toU64 r.1)
    else
      match unitsLoop (s.length + 1) s 0 with
      | .ok total => if total > now then .ok 0 else .ok (toU64 (now - total))
      | .fail => .ok 0
      | .fault f => .fault f

/-- A time option, `/repo/src/dnstable_lookup.c:322-349`: a result of 0 ends the program with the usage message. -/
def timeOption (T : TimeLibs) (now : Int) (s : Bytes) : Out Nat := do
  let t ← parseTime T now s
  if t = 0 then .fail else .ok t

end Verif
