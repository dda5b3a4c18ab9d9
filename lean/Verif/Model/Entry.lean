import Verif.Model.Triplet
import Verif.Model.Names

/-!
# Entries: decoding and accessors (`/repo/dnstable/entry.c`)

The enumerators `DNSTABLE_ENTRY_TYPE_*` (`/repo/dnstable/dnstable.h:42-50`) have the values of the
key type bytes (`/repo/dnstable/dnstable-private.h:59-66`).
-/

namespace Verif

/-- `ENTRY_TYPE_RRSET`, `/repo/dnstable/dnstable-private.h:59`. -/
def tRRSET : Nat := 0
/-- `ENTRY_TYPE_RRSET_NAME_FWD`, `/repo/dnstable/dnstable-private.h:60`. -/
def tRRSET_NAME_FWD : Nat := 1
/-- `ENTRY_TYPE_RDATA`, `/repo/dnstable/dnstable-private.h:61`. -/
def tRDATA : Nat := 2
/-- `ENTRY_TYPE_RDATA_NAME_REV`, `/repo/dnstable/dnstable-private.h:62`. -/
def tRDATA_NAME_REV : Nat := 3
/-- `ENTRY_TYPE_SOURCE_INFO`, `/repo/dnstable/dnstable-private.h:64`. -/
def tSOURCE_INFO : Nat := 253
/-- `ENTRY_TYPE_TIME_RANGE`, `/repo/dnstable/dnstable-private.h:65`. -/
def tTIME_RANGE : Nat := 254
/-- `ENTRY_TYPE_VERSION`, `/repo/dnstable/dnstable-private.h:66`. -/
def tVERSION : Nat := 255

/-- `struct dnstable_entry`, `/repo/dnstable/entry.c:37-48`.  A `NULL` name has length 0.
The defaults are those of `my_calloc`, `/repo/dnstable/entry.c:820`. -/
structure Entry where
  eType : Nat := 0
  name : Bytes := []
  bailiwick : Bytes := []
  rrtype : Nat := 0
  rdatas : List Bytes := []
  rrtypeMap : Option Bytes := none
  sourceInfo : Option Bytes := none
  timeFirst : Nat := 0
  timeLast : Nat := 0
  count : Nat := 0
  vType : Nat := 0
  version : Nat := 0
  iszone : Bool := false
deriving DecidableEq, Repr

/-- `decode_val_triplet`, `/repo/dnstable/entry.c:609-626`. -/
def decodeValTriplet (e : Entry) (val : Bytes) : Out Entry := do
  let (f, l, c) ← tripletUnpack val
  .ok { e with
    timeFirst := f
    timeLast := if l = 0 then f else l
    count := if c = 0 then 1 else c }

/-- A label-reversed name at the start of `p` turned into wire order: `wdns_len_uname` followed by
`wdns_reverse_name` into a local buffer of `WDNS_MAXLEN_NAME` bytes
(`/repo/dnstable/entry.c:637-644,654-661,749-756`).  Returns the name and its length.  The
destination size is not passed to `wdns_reverse_name`: a longer name is a write outside the buffer. -/
def decodeName (p : Bytes) : Out (Bytes × Nat) := do
  let len ← lenUname p
  let rev ← reverseName (p.take len)
  if len > maxLenName then .fault .oobWrite else .ok (rev, len)

/-- The rdata loop of `decode_rrset`, `/repo/dnstable/entry.c:665-683`.  An iteration that consumes
nothing repeats for ever (allocating each time). -/
def decodeRdatas (p : Bytes) : Out (List Bytes) :=
  if _hp : p = [] then .ok []
  else
    match varintDecode32 p with
    | .fault f => .fault f
    | .fail => .fail
    | .ok (n, len) =>
      if len > 65535 then .fail
      else if n + len > p.length then .fail
      else if _hz : n + len = 0 then .fault .diverge
      else
        match decodeRdatas (p.drop (n + len)) with
        | .fault f => .fault f
        | .fail => .fail
        | .ok ds => .ok ((p.drop n).take len :: ds)
termination_by p.length
decreasing_by
  have := List.length_pos_iff.mpr _hp
  simp; omega

/-- `decode_rrset`, `/repo/dnstable/entry.c:628-686`; `buf` is the key without its type byte. -/
def decodeRrset (e : Entry) (buf : Bytes) : Out Entry := do
  let (name, ln) ← decodeName buf
  let p := buf.drop ln
  let (nt, rrtype) ← varintDecode32 p
  let p := p.drop nt
  let (bw, lb) ← decodeName p
  let p := p.drop lb
  let ds ← decodeRdatas p
  .ok { e with name := name, rrtype := rrtype, bailiwick := bw, rdatas := e.rdatas ++ ds }

/-- `decode_rrset_name_fwd`, `/repo/dnstable/entry.c:688-699`. -/
def decodeRrsetNameFwd (e : Entry) (buf val : Bytes) : Out Entry :=
  .ok { e with name := buf, rrtypeMap := if val.length > 0 then some val else none }

/-- `decode_rdata_name_rev`, `/repo/dnstable/entry.c:701-715`. -/
def decodeRdataNameRev (e : Entry) (buf val : Bytes) : Out Entry := do
  let rev ← reverseName buf
  .ok { e with name := rev, rrtypeMap := if val.length > 0 then some val else none }

/-- `decode_rdata`, `/repo/dnstable/entry.c:717-776`.  `rdata->len` is a `uint16_t`
(`wdns_rdata_t`), so only that many bytes are visible afterwards. -/
def decodeRdata (e : Entry) (buf : Bytes) : Out Entry := do
  if buf.length < 2 then .fail
  else
    let endp := buf.length - 2
    let lo ← byteAt buf endp
    let hi ← byteAt buf (endp + 1)
    let lenData := lo.toNat + 256 * hi.toNat
    if lenData > endp then .fail
    else
      let (nt, rrtype) ← varintDecode32 (buf.drop lenData)
      if lenData + nt > endp then .fail
      else
        let (name, ln) ← decodeName ((buf.take endp).drop (lenData + nt))
        let data := buf.take lenData
        let slice := (buf.take endp).drop (lenData + nt + ln)
        let all := slice ++ data
        .ok { e with name := name, rrtype := rrtype,
                     rdatas := e.rdatas ++ [all.take (all.length % 65536)] }

/-- `decode_time_range`, `/repo/dnstable/entry.c:778-782`. -/
def decodeTimeRange (e : Entry) (val : Bytes) : Out Entry := do
  let (a, b) ← pairUnpack val
  .ok { e with timeFirst := a, timeLast := b }

/-- `decode_source_info`, `/repo/dnstable/entry.c:784-793`. -/
def decodeSourceInfo (e : Entry) (buf : Bytes) : Out Entry :=
  .ok { e with sourceInfo := some buf }

/-- `decode_version`, `/repo/dnstable/entry.c:795-811`. -/
def decodeVersion (e : Entry) (buf val : Bytes) : Out Entry :=
  match buf with
  | [t] =>
    if val.length = 0 then .fail
    else do
      let (n, v) ← varintDecode32 val
      if n = val.length then .ok { e with vType := t.toNat, version := v } else .fail
  | _ => .fail

/-- `dnstable_entry_decode`, `/repo/dnstable/entry.c:813-860`.  An unknown type byte leaves the
zero-initialised entry, whose type reads as RRSET. -/
def entryDecode (key val : Bytes) : Out Entry :=
  match key with
  | [] => .fail
  | t :: buf =>
    let t := t.toNat
    if t = tRRSET then do
      let e ← decodeRrset { eType := tRRSET } buf
      decodeValTriplet e val
    else if t = tRRSET_NAME_FWD then decodeRrsetNameFwd { eType := tRRSET_NAME_FWD } buf val
    else if t = tRDATA then do
      let e ← decodeRdata { eType := tRDATA } buf
      decodeValTriplet e val
    else if t = tRDATA_NAME_REV then decodeRdataNameRev { eType := tRDATA_NAME_REV } buf val
    else if t = tTIME_RANGE then decodeTimeRange { eType := tTIME_RANGE } val
    else if t = tSOURCE_INFO then decodeSourceInfo { eType := tSOURCE_INFO } buf
    else if t = tVERSION then decodeVersion { eType := tVERSION } buf val
    else .ok {}

/-! ## Accessors, `/repo/dnstable/entry.c:929-1094` -/

namespace Entry

/-- `dnstable_entry_get_type`, `/repo/dnstable/entry.c:929-933`. -/
def getType (e : Entry) : Nat := e.eType

/-- `dnstable_entry_set_iszone`, `/repo/dnstable/entry.c:935-939`. -/
def setIszone (e : Entry) (b : Bool) : Entry := { e with iszone := b }

/-- `dnstable_entry_get_rrname`, `/repo/dnstable/entry.c:941-954`. -/
def getRrname (e : Entry) : Out Bytes :=
  if e.eType = tRRSET ∨ e.eType = tRRSET_NAME_FWD ∨ e.eType = tRDATA then .ok e.name else .fail

/-- `dnstable_entry_get_bailiwick`, `/repo/dnstable/entry.c:956-967`. -/
def getBailiwick (e : Entry) : Out Bytes :=
  if e.eType = tRRSET then .ok e.bailiwick else .fail

/-- `dnstable_entry_get_rrtype`, `/repo/dnstable/entry.c:969-979`: truncated to 16 bits. -/
def getRrtype (e : Entry) : Out Nat :=
  if e.eType = tRRSET ∨ e.eType = tRDATA then .ok (e.rrtype % 65536) else .fail

/-- `dnstable_entry_get_num_rdata`, `/repo/dnstable/entry.c:981-991`. -/
def getNumRdata (e : Entry) : Out Nat :=
  if e.eType = tRRSET ∨ e.eType = tRDATA then .ok e.rdatas.length else .fail

/-- `rdata_vec_value`, `/repo/libmy/vector.h:144-148`: asserts that the index is in range. -/
def rdataVecValue (v : List Bytes) (i : Nat) : Out Bytes :=
  match v[i]? with
  | some d => .ok d
  | none => .fault .abort

/-- `dnstable_entry_get_rdata`, `/repo/dnstable/entry.c:993-1007`; note `i > size`. -/
def getRdata (e : Entry) (i : Nat) : Out Bytes :=
  if e.eType = tRRSET ∨ e.eType = tRDATA then
    if i > e.rdatas.length then .fail else rdataVecValue e.rdatas i
  else .fail

/-- `dnstable_entry_get_rdata_name`, `/repo/dnstable/entry.c:1009-1020`. -/
def getRdataName (e : Entry) : Out Bytes :=
  if e.eType = tRDATA_NAME_REV then .ok e.name else .fail

/-- `dnstable_entry_get_time_first`, `/repo/dnstable/entry.c:1022-1033`. -/
def getTimeFirst (e : Entry) : Out Nat :=
  if e.eType = tRRSET ∨ e.eType = tRDATA ∨ e.eType = tTIME_RANGE then .ok e.timeFirst else .fail

/-- `dnstable_entry_get_time_last`, `/repo/dnstable/entry.c:1035-1046`. -/
def getTimeLast (e : Entry) : Out Nat :=
  if e.eType = tRRSET ∨ e.eType = tRDATA ∨ e.eType = tTIME_RANGE then .ok e.timeLast else .fail

/-- `dnstable_entry_get_count`, `/repo/dnstable/entry.c:1048-1058`. -/
def getCount (e : Entry) : Out Nat :=
  if e.eType = tRRSET ∨ e.eType = tRDATA then .ok e.count else .fail

/-- `dnstable_entry_get_source_info`, `/repo/dnstable/entry.c:1060-1068`: the caller gets a
NUL-terminated string, so text ends at the first NUL byte. -/
def getSourceInfo (e : Entry) : Out Bytes :=
  if e.eType = tSOURCE_INFO then
    match e.sourceInfo with
    | some s => .ok (s.takeWhile (· != 0))
    | none => .fault .nullDeref
  else .fail

/-- `dnstable_entry_get_version`, `/repo/dnstable/entry.c:1070-1078`. -/
def getVersion (e : Entry) : Out Nat :=
  if e.eType = tVERSION then .ok e.version else .fail

/-- `dnstable_entry_get_version_type`, `/repo/dnstable/entry.c:1080-1094`. -/
def getVersionType (e : Entry) : Out Nat :=
  if e.eType = tVERSION then .ok e.vType else .fail

end Entry
end Verif
