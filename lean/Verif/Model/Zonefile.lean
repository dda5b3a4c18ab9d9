import Verif.Model.Base
import Verif.Model.Util

/-!
# Reading zone files (`/repo/libmy/zonefile.c`)

What `ldns_rr_new_frm_fp_l` of libldns delivers is given: for each entry of the file a record, nothing or an error.  A record has a
number, so that it can be said what becomes of it.
-/

namespace Verif.Zonefile

/-- A record: which it is, whether its type is SOA, and its third field if it has one (`/repo/libmy/zonefile.c:52`, `134`). -/
structure Rec where
  num : Nat
  soa : Bool
  serial : Option Nat
  deriving DecidableEq

/-- What one call of `ldns_rr_new_frm_fp_l` finds (`/repo/libmy/zonefile.c:33-43`, `162-180`): a record; an empty line or `$TTL`;
`$ORIGIN`; something else. -/
inductive Item where
  | record (r : Rec)
  | blank
  | origin
  | bad
  deriving DecidableEq

/-- `struct zonefile`, `/repo/libmy/zonefile.c:13-24`; of `origin` only whether there is one; `rest` is what is left of the file, and
`released` and `lost` list the records freed and count the origins no longer known. -/
structure Zone where
  eof : Bool
  valid : Bool
  count : Nat
  rrSoa : Option Rec
  origin : Bool
  rest : List Item
  released : List Nat
  lost : Nat
  deriving DecidableEq

/-- `read_soa`, `/repo/libmy/zonefile.c:26-63`; the function does not look for the end of the file, where libldns says `ends`: `blank` or
`bad`. -/
def readSoa (ends : Item) (z : Zone) : List Item → Out (Zone × Bool)
  | [] => if ends = .bad then .ok ({ z with valid := false, rest := [] }, false) else .fault .diverge
  | .blank :: is => readSoa ends z is
  | .origin :: is => readSoa ends { z with origin := true } is
  | .bad :: is => .ok ({ z with valid := false, rest := is }, false)
  | .record r :: is =>
    if r.soa then
      .ok ({ z with count := 1, rrSoa := some r, lost := if z.origin then z.lost + 1 else z.lost, origin := true, rest := is }, true)
    else .ok ({ z with valid := false, rest := is, released := r.num :: z.released }, false)

/-- `zonefile_destroy`, `/repo/libmy/zonefile.c:96-117`: the records freed and the number of origins that nobody can free. -/
def destroy (z : Zone) : List Nat × Nat := (z.rrSoa.toList.map (·.num) ++ z.released, z.lost)

/-- `zonefile_init_fname`, `/repo/libmy/zonefile.c:65-94`, for a file that could be opened; without an object, what was freed is given. -/
def init (ends : Item) (is : List Item) : Out (Zone ⊕ List Nat × Nat) := do
  let (z, good) ← readSoa ends ⟨false, true, 0, none, false, [], [], 0⟩ is
  .ok (if good then .inl z else .inr (destroy z))

/-- How the file is opened (`/repo/libmy/zonefile.c:75-84`): as the output of a command, or itself. -/
inductive Source where
  | command (line : Bytes)
  | file (name : Bytes)
  deriving DecidableEq

/-- The choice at `/repo/libmy/zonefile.c:70-84`; a character that is not there cannot be read. -/
def source (name : Bytes) : Out Source :=
  if name.length ≥ 3 then
    match name[name.length - 3]?, name[name.length - 2]?, name[name.length - 1]? with
    | some a, some b, some c =>
      .ok (if a = 46 ∧ b = 103 ∧ c = 122 then .command (lit "zcat " ++ name) else .file name)
    | _, _, _ => .fault .oobRead
  else .ok (.file name)

/-- `zonefile_init_fname` as a whole, `/repo/libmy/zonefile.c:65-94`; `opens` is what can be read from a source, if it can be opened.  Also
returns how many objects that nobody knows of are left. -/
def initFname (ends : Item) (opens : Source → Option (List Item)) (name : Bytes) : Out ((Zone ⊕ List Nat × Nat) × Nat) := do
  let src ← source name
  match opens src with
  | none => .ok (.inr ([], 0), 1)
  | some is => do
    let x ← init ends is
    .ok (x, 0)

/-- `zonefile_get_count`, `/repo/libmy/zonefile.c:125-129`. -/
def getCount (z : Zone) : Nat := z.count

/-- `zonefile_get_serial`, `/repo/libmy/zonefile.c:131-137`. -/
def getSerial (z : Zone) : Out Nat :=
  match z.rrSoa with
  | none => .fault .nullDeref
  | some r => match r.serial with
    | none => .fault .abort
    | some n => .ok n

/-- What `zonefile_read` gives (`/repo/libmy/zonefile.c:139-188`): a record, none, or an error without setting its result. -/
inductive Read where
  | rr (r : Rec)
  | none
  | error
  deriving DecidableEq

/-- The loop at `/repo/libmy/zonefile.c:156-187`. -/
def readLoop (z : Zone) : List Item → Zone × Read
  | [] => ({ z with eof := true, rest := [] }, .none)
  | .blank :: is => readLoop z is
  | .origin :: is => readLoop { z with origin := true } is
  | .bad :: is => ({ z with rest := is }, .error)
  | .record r :: is =>
    if r.soa then ({ z with rest := is, released := r.num :: z.released }, .none)
    else ({ z with rest := is, count := z.count + 1 }, .rr r)

/-- `zonefile_read`, `/repo/libmy/zonefile.c:139-188`. -/
def read (z : Zone) : Zone × Read :=
  if z.eof then (z, .none)
  else if ¬ z.valid then (z, .error)
  else match z.rrSoa with
    | some r => if z.count = 1 then ({ z with rrSoa := none }, .rr r) else readLoop z z.rest
    | none => readLoop z z.rest

/-- Calls of `zonefile_read` one after the other (`/repo/libmy/zonefile.c:139-188`). -/
def reads : Nat → Zone → Zone × List Read
  | 0, z => (z, [])
  | n + 1, z =>
    let (z, x) := read z
    let (z, xs) := reads n z
    (z, x :: xs)

end Verif.Zonefile
