import Verif.Model.Query
import Verif.Model.Format
import Verif.Model.Util

/-!
# Building a query (`/repo/dnstable/query.c:123-514`, `/repo/libmy/ip_arith.h`)

A setter yields the changed query and whether it reported success.  The error text (`q->err`) and
the blocks of memory are added in `Verif.Model.QueryMem`.  C strings are byte strings without the terminating NUL.
-/

namespace Verif

/-! ## Library functions -/

/-- The library functions used for parsing: `inet_pton` (`/repo/dnstable/query.c:150,153`),
`wdns_str_to_name_case` and `wdns_downcase_name` (`/repo/dnstable/query.c:137,142`), `wdns_str_to_rrtype`
(`/repo/dnstable/query.c:427`; 0 for an unknown mnemonic). -/
structure Libs where
  pton4 : Bytes → Option Bytes
  pton6 : Bytes → Option Bytes
  strToName : Bytes → Option Bytes
  downcase : Bytes → Bytes
  strToRrtype : Bytes → Nat

/-- How the compiled code shifts (`/repo/libmy/ip_arith.h:37,47,68,73,90,95`): an `int` by some count, giving its
32-bit pattern, and an `unsigned long long` by some count. -/
structure Arith where
  shlInt : Nat → Nat → Out Nat
  shl64 : Nat → Nat → Out Nat

/-- Shifts as the C standard has them: counts out of range and signed overflow are undefined
(`/repo/libmy/ip_arith.h:37,47,68,73,90,95`). -/
def strictArith : Arith where
  shlInt v s := if s ≥ 32 ∨ v * 2 ^ s ≥ 2 ^ 31 then .fault .badShift else .ok (v * 2 ^ s)
  shl64 v s := if s ≥ 64 then .fault .badShift else .ok (v * 2 ^ s % 2 ^ 64)

/-- Shifts as x86 processors execute them: the count is taken modulo the width
(`/repo/libmy/ip_arith.h:37,47,68,73,90,95`). -/
def x86Arith : Arith where
  shlInt v s := .ok (v * 2 ^ (s % 32) % 2 ^ 32)
  shl64 v s := .ok (v * 2 ^ (s % 64) % 2 ^ 64)

/-- Successive calls of `strtok_r`, `acc` being the token under way (`/repo/dnstable/query.c:254-256,289-291`). -/
def tokenLoop (sep : UInt8) : Bytes → Bytes → List Bytes
  | [], acc => if acc = [] then [] else [acc]
  | c :: s, acc =>
    if c = sep then (if acc = [] then tokenLoop sep s [] else acc :: tokenLoop sep s [])
    else tokenLoop sep s (acc ++ [c])

/-- What successive calls of `strtok_r` return: the non-empty pieces between separators
(`/repo/dnstable/query.c:254-256,289-291`). -/
def tokens (sep : UInt8) (s : Bytes) : List Bytes := tokenLoop sep s []

/-- White space of the C locale, skipped by `strtol` (`/repo/dnstable/query.c:296`). -/
def isSpace (c : UInt8) : Bool := c == 32 || (9 ≤ c && c ≤ 13)

/-- `strtol(s, &endptr, 10)` with `errno == 0` and `*endptr == '\0'` afterwards, for a non-empty `s`
(`/repo/dnstable/query.c:295-297`). -/
def strtolAll (s : Bytes) : Option Int :=
  let s := s.dropWhile isSpace
  let r : Bool × Bytes :=
    match s with
    | c :: t => if c = 45 then (true, t) else if c = 43 then (false, t) else (false, s)
    | [] => (false, s)
  if r.2 = [] ∨ ¬ (r.2.all fun c => 48 ≤ c && c ≤ 57) then none
  else
    let n : Nat := r.2.foldl (fun a c => 10 * a + (c.toNat - 48)) 0
    let v : Int := if r.1 then -n else n
    if v < -(2 ^ 63) ∨ v ≥ 2 ^ 63 then none else some v

/-! ## Address arithmetic -/

/-- The number in big-endian memory: `be32toh`, `be64toh` after `memcpy` (`/repo/libmy/ip_arith.h:36-38,77`).
Masking in memory with `htobe32(mask)` is masking this number with `mask`. -/
def loadBe (b : Bytes) : Nat := b.foldl (fun a c => 256 * a + c.toNat) 0

/-- Big-endian memory of `k` bytes: `htobe32`, `htobe64` (`/repo/libmy/ip_arith.h:37-38`). -/
def storeBe : Nat → Nat → Bytes
  | 0, _ => []
  | k + 1, n => storeBe k (n / 256) ++ [UInt8.ofNat (n % 256)]

/-- `unsigned` arithmetic: `32 - prefix_len` (`/repo/libmy/ip_arith.h:37`). -/
def subU32 (a b : Nat) : Nat := (a + 2 ^ 32 - b % 2 ^ 32) % 2 ^ 32

/-- `(1 << (32 - prefix_len)) - 1` as a 32-bit pattern, `/repo/libmy/ip_arith.h:37,47`. -/
def ip4Host (A : Arith) (plen : Nat) : Out Nat := do
  let x ← A.shlInt 1 (subU32 32 plen)
  .ok (subU32 x 1)

/-- `ip4_lower`, `/repo/libmy/ip_arith.h:32-39`. -/
def ip4Lower (A : Arith) (address : Bytes) (plen : Nat) : Out Bytes := do
  let m ← ip4Host A plen
  .ok (storeBe 4 (loadBe address &&& (2 ^ 32 - 1 - m)))

/-- `ip4_upper`, `/repo/libmy/ip_arith.h:42-49`. -/
def ip4Upper (A : Arith) (address : Bytes) (plen : Nat) : Out Bytes := do
  let m ← ip4Host A plen
  .ok (storeBe 4 (loadBe address ||| m))

/-- `((1ULL << prefix_len) - 1ULL) << (64ULL - prefix_len)`, `/repo/libmy/ip_arith.h:68,73,90,95`. -/
def net64 (A : Arith) (plen : Nat) : Out Nat := do
  let x ← A.shl64 1 plen
  A.shl64 ((x + 2 ^ 64 - 1) % 2 ^ 64) (64 - plen)

/-- The two words of `mask` in `ip6_lower`, `/repo/libmy/ip_arith.h:66-76`. -/
def ip6Net (A : Arith) (plen : Nat) : Out (Nat × Nat) :=
  if plen < 64 then do
    let m ← net64 A plen
    .ok (m, 0)
  else if plen < 128 then do
    let m ← net64 A (plen - 64)
    .ok (2 ^ 64 - 1, m)
  else .ok (2 ^ 64 - 1, 2 ^ 64 - 1)

/-- `ip6_lower`, `/repo/libmy/ip_arith.h:63-81`. -/
def ip6Lower (A : Arith) (address : Bytes) (plen : Nat) : Out Bytes := do
  let m ← ip6Net A plen
  .ok (storeBe 8 (loadBe (address.take 8) &&& m.1) ++ storeBe 8 (loadBe (address.drop 8) &&& m.2))

/-- The two words of `mask` in `ip6_upper`, `/repo/libmy/ip_arith.h:88-98`. -/
def ip6Host (A : Arith) (plen : Nat) : Out (Nat × Nat) :=
  if plen < 64 then do
    let m ← net64 A plen
    .ok (2 ^ 64 - 1 - m, 2 ^ 64 - 1)
  else if plen < 128 then do
    let m ← net64 A (plen - 64)
    .ok (0, 2 ^ 64 - 1 - m)
  else .ok (0, 0)

/-- `ip6_upper`, `/repo/libmy/ip_arith.h:85-103`. -/
def ip6Upper (A : Arith) (address : Bytes) (plen : Nat) : Out Bytes := do
  let m ← ip6Host A plen
  .ok (storeBe 8 (loadBe (address.take 8) ||| m.1) ++ storeBe 8 (loadBe (address.drop 8) ||| m.2))

/-! ## Setters -/

/-- `query_load_name`, `/repo/dnstable/query.c:130-144`: the new name (`none` for a NULL pointer) and success. -/
def loadName (L : Libs) (s : Option Bytes) (caseSensitive : Bool) : Option Bytes × Bool :=
  match s with
  | none => (none, true)
  | some s =>
    match L.strToName s with
    | none => (none, false)
    | some n => (some (if caseSensitive then n else L.downcase n), true)

/-- `query_load_address`, `/repo/dnstable/query.c:146-159`: the address (empty if `*len_addr` is 0) and success. -/
def loadAddress (L : Libs) (data : Bytes) : Bytes × Bool :=
  match L.pton4 data with
  | some a => (a, true)
  | none =>
    match L.pton6 data with
    | some a => (a, true)
    | none => ([], false)

/-- `dnstable_query_init`, `/repo/dnstable/query.c:161-175`. -/
def queryInit (t : QType) : Out Query :=
  if t = .sourceInfo then .fault .abort else .ok { qType := t }

/-- `dnstable_query_set_bailiwick`, `/repo/dnstable/query.c:204-224`. -/
def setBailiwick (L : Libs) (q : Query) (s : Option Bytes) : Query × Bool :=
  if q.qType ≠ .rrset then (q, false)
  else
    match loadName L s false with
    | (n, false) => ({ q with bailiwick := n }, false)
    | (none, true) => ({ q with bailiwick := none }, true)
    | (some n, true) =>
      match reverseName n with
      | .ok rev => ({ q with bailiwick := some rev }, true)
      | _ => ({ q with bailiwick := some n }, false)

/-- `query_set_data_rrset_owner` and `query_set_data_rdata_name`, `/repo/dnstable/query.c:226-236`. -/
def setDataName (L : Libs) (q : Query) (s : Option Bytes) : Query × Bool :=
  let r := loadName L s q.caseSensitive
  ({ q with name := r.1.getD [] }, r.2)

/-- `query_set_data_rdata_raw`, `/repo/dnstable/query.c:238-245`: the old data is freed first; `hex_decode`
sets the length before looking at the digits. -/
def setDataRaw (q : Query) (data : Option Bytes) : Query × Bool :=
  let q := { q with rdata := none }
  match data with
  | none => (q, true)
  | some hex =>
    if hex.length = 0 ∨ hex.length % 2 ≠ 0 then (q, false)
    else
      let q := { q with lenRdata := hex.length / 2 }
      match hexDecode hex with
      | .ok raw => ({ q with rdata := some raw }, true)
      | _ => (q, false)

/-- The record type for an address, `/repo/dnstable/query.c:265-270,340-344`. -/
def withIpType (q : Query) : Query :=
  { q with doRrtype := true, rrtype := if q.ip1.length = 4 then 1 else if q.ip1.length = 16 then 28 else q.rrtype }

/-- `query_set_data_rdata_ip_range`, `/repo/dnstable/query.c:247-274`. -/
def setDataRange (L : Libs) (q : Query) (data : Bytes) : Query × Bool :=
  match tokens 45 data with
  | [addr1, addr2] =>
    match loadAddress L addr1 with
    | (a, false) => ({ q with ip1 := a }, false)
    | (a, true) =>
      let q := { q with ip1 := a }
      match loadAddress L addr2 with
      | (b, false) => ({ q with ip2 := b }, false)
      | (b, true) =>
        let q := { q with ip2 := b }
        if q.ip1.length ≠ q.ip2.length then (q, false) else (withIpType q, true)
  | _ => (q, false)

/-- `query_set_data_rdata_ip_prefix`, `/repo/dnstable/query.c:276-332`.  The `long` is passed as `unsigned`. -/
def setDataPrefix (A : Arith) (L : Libs) (q : Query) (data : Bytes) : Out (Query × Bool) :=
  match tokens 47 data with
  | [address, prefixLength] =>
    match loadAddress L address with
    | (_, false) => .ok (q, false)
    | (ip, true) =>
      match strtolAll prefixLength with
      | none => .ok (q, false)
      | some plen =>
        if (ip.length = 4 ∧ plen > 32) ∨ (ip.length = 16 ∧ plen > 128) then .ok (q, false)
        else
          let p := (plen % 2 ^ 32).toNat
          if ip.length = 4 then do
            let lo ← ip4Lower A ip p
            let hi ← ip4Upper A ip p
            .ok ({ q with doRrtype := true, rrtype := 1, ip1 := lo, ip2 := hi }, true)
          else if ip.length = 16 then do
            let lo ← ip6Lower A ip p
            let hi ← ip6Upper A ip p
            .ok ({ q with doRrtype := true, rrtype := 28, ip1 := lo, ip2 := hi }, true)
          else .ok (q, false)
  | _ => .ok (q, false)

/-- `query_set_data_rdata_ip_address`, `/repo/dnstable/query.c:334-346`. -/
def setDataAddress (L : Libs) (q : Query) (data : Bytes) : Query × Bool :=
  let q := { q with ip2 := [] }
  match loadAddress L data with
  | (a, false) => ({ q with ip1 := a }, false)
  | (a, true) => (withIpType { q with ip1 := a }, true)

/-- `query_set_data_rdata_ip`, `/repo/dnstable/query.c:348-364`. -/
def setDataIp (A : Arith) (L : Libs) (q : Query) (data : Option Bytes) : Out (Query × Bool) :=
  match data with
  | none => .ok ({ q with ip1 := [], ip2 := [] }, true)
  | some s =>
    if 45 ∈ s then .ok (setDataRange L q s)
    else if 47 ∈ s then setDataPrefix A L q s
    else .ok (setDataAddress L q s)

/-- `query_set_version_type`, `/repo/dnstable/query.c:366-390`. -/
def setVersionType (q : Query) (data : Option Bytes) : Query × Bool :=
  match data with
  | none => (q, true)
  | some s =>
    match entryTypeFromString s with
    | .ok t =>
      if t = 0 ∨ t = 1 ∨ t = 2 ∨ t = 3 then ({ q with hasVType := true, vType := UInt8.ofNat t }, true)
      else (q, false)
    | _ => (q, false)

/-- `dnstable_query_set_data`, `/repo/dnstable/query.c:392-408`. -/
def setData (A : Arith) (L : Libs) (q : Query) (data : Option Bytes) : Out (Query × Bool) :=
  match q.qType with
  | .rrset => .ok (setDataName L q data)
  | .rdataName => .ok (setDataName L q data)
  | .rdataIp => setDataIp A L q data
  | .rdataRaw => .ok (setDataRaw q data)
  | .version => .ok (setVersionType q data)
  | _ => .ok (q, false)

/-- `dnstable_query_set_rrtype`, `/repo/dnstable/query.c:410-436`. -/
def setRrtype (L : Libs) (q : Query) (s : Option Bytes) : Query × Bool :=
  match s with
  | none => ({ q with doRrtype := false }, true)
  | some s =>
    if sameNoCase s (lit "ANY") ∨ sameNoCase s (lit "TYPE255") ∨ sameNoCase s (lit "ANY-DNSSEC") then
      ({ q with doRrtype := false }, true)
    else
      let rrtype := L.strToRrtype s % 2 ^ 16
      if rrtype = 0 then (q, false) else ({ q with rrtype := rrtype, doRrtype := true }, true)

/-- `dnstable_query_set_filter_parameter`, `/repo/dnstable/query.c:489-514`: `pType` is the number of the parameter
(`/repo/dnstable/dnstable.h:52-57`), `param` the pointed-to 64-bit number if the pointer is not NULL. -/
def setFilterParameter (q : Query) (pType : Nat) (param : Option Nat) (lenParam : Nat) : Query × Bool :=
  if lenParam ≠ 8 then (q, false)
  else if pType = 0 then ({ q with bounds := { q.bounds with firstBefore := param } }, true)
  else if pType = 1 then ({ q with bounds := { q.bounds with firstAfter := param } }, true)
  else if pType = 2 then ({ q with bounds := { q.bounds with lastBefore := param } }, true)
  else if pType = 3 then ({ q with bounds := { q.bounds with lastAfter := param } }, true)
  else (q, false)

/-- `dnstable_query_set_timeout`, `/repo/dnstable/query.c:452-464`. -/
def setTimeout (q : Query) (t : Option Timespec) : Query × Bool :=
  match t with
  | none => ({ q with lim := { q.lim with doTimeout := false } }, true)
  | some t => ({ q with lim := { q.lim with doTimeout := true, timeout := t } }, true)

/-- `dnstable_query_set_deadline`, `/repo/dnstable/query.c:466-477`. -/
def setDeadlineParam (q : Query) (t : Option Timespec) : Query × Bool :=
  match t with
  | none => ({ q with lim := { q.lim with doDeadline := false } }, true)
  | some t => ({ q with lim := { q.lim with doDeadline := true, deadline := t } }, true)

/-- A call of one of the setters of `/repo/dnstable/dnstable.h`, `/repo/dnstable/query.c:197-514`. -/
inductive Setter where
  | caseSensitive (b : Bool)
  | bailiwick (s : Option Bytes)
  | data (s : Option Bytes)
  | rrtype (s : Option Bytes)
  | offset (n : Nat)
  | aggregated (b : Bool)
  | timeout (t : Option Timespec)
  | deadline (t : Option Timespec)
  | filterParam (pType : Nat) (param : Option Nat) (lenParam : Nat)
deriving DecidableEq, Repr

/-- One setter call; `set_case_sensitive` 197-202, `set_offset` 438-443, `set_aggregated` 445-450 of
`/repo/dnstable/query.c`. -/
def applySetter (A : Arith) (L : Libs) (q : Query) : Setter → Out (Query × Bool)
  | .caseSensitive b => .ok ({ q with caseSensitive := b }, true)
  | .bailiwick s => .ok (setBailiwick L q s)
  | .data s => setData A L q s
  | .rrtype s => .ok (setRrtype L q s)
  | .offset n => .ok ({ q with offset := n }, true)
  | .aggregated b => .ok ({ q with aggregated := b }, true)
  | .timeout t => .ok (setTimeout q t)
  | .deadline t => .ok (setDeadlineParam q t)
  | .filterParam p v n => .ok (setFilterParameter q p v n)

/-- A sequence of setter calls on one query (`/repo/dnstable/query.c:197-514`): the final query and the reported
results. -/
def applySetters (A : Arith) (L : Libs) (q : Query) : List Setter → Out (Query × List Bool)
  | [] => .ok (q, [])
  | s :: ss => do
    let r ← applySetter A L q s
    let rs ← applySetters A L r.1 ss
    .ok (rs.1, r.2 :: rs.2)

end Verif
