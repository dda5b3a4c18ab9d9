import Verif.Model.Entry
import Verif.Model.Time
import Verif.Model.Union
import Verif.Model.Util
import Verif.Model.Varint

/-!
# JSON output of entries (`/repo/dnstable/entry.c:24-34,167-225,340-530,533-592`)

The texts of names, types and record data are made by `libwdns`, which is not part of `/repo`; its three
functions are parameters.  A `ubuf` is the list of its bytes.
-/

namespace Verif

/-- The functions of `libwdns` that make text (called in `/repo/dnstable/entry.c:170,385,407`). -/
structure Wdns where
  /-- `wdns_domain_to_str` -/
  domainToStr : Bytes → Out Bytes
  /-- `wdns_rrtype_to_str`; `none` is `NULL` -/
  rrtypeToStr : Nat → Option Bytes
  /-- `wdns_rdata_to_str` of record data and type, class IN -/
  rdataToStr : Bytes → Nat → Bytes

/-- `struct dnstable_formatter`, `/repo/dnstable/entry.c:50-55`, with the defaults of
`dnstable_formatter_init`, `/repo/dnstable/entry.c:533-542`. -/
structure Formatter where
  /-- `output_format == dnstable_output_format_json` -/
  json : Bool := true
  /-- `date_format == dnstable_date_format_unix` -/
  unixDates : Bool := true
  alwaysArray : Bool := false
  addRawRdata : Bool := false
deriving DecidableEq, Repr

/-- `dnstable_formatter_set_date_format`, `/repo/dnstable/entry.c:560-567`. -/
def Formatter.setDateFormat (f : Formatter) (unix : Bool) : Formatter := { f with unixDates := unix }

/-- `dnstable_formatter_set_rdata_array`, `/repo/dnstable/entry.c:572-579`. -/
def Formatter.setRdataArray (f : Formatter) (b : Bool) : Formatter := { f with alwaysArray := b }

/-- `dnstable_formatter_set_raw_rdata`, `/repo/dnstable/entry.c:585-592`. -/
def Formatter.setRawRdata (f : Formatter) (b : Bool) : Formatter := { f with addRawRdata := b }

/-- What `strlen` lets be seen of a string (`JSON_STR_APPEND`, `/repo/dnstable/entry.c:32`). -/
def cstr (s : Bytes) : Bytes := s.takeWhile (· != 0)

/-- `JSON_STR_APPEND`, `/repo/dnstable/entry.c:32`. -/
def jsonStrAppend (u s : Bytes) : Bytes := appendJsonValueString u (cstr s)

/-- `declare_json_value`, `/repo/dnstable/dnstable-json.h:52-61`. -/
def declareJsonValue (u name : Bytes) (isFirst : Bool) : Bytes :=
  let u := if !isFirst then u ++ [44, 34] else u ++ [34]
  u ++ name ++ [34, 58]

/-- The `ubuf` together with the variable `started`, `/repo/dnstable/entry.c:348-350`. -/
structure JBuf where
  u : Bytes
  started : Nat
deriving DecidableEq, Repr

/-- `JSON_DECL_VALUE`, `/repo/dnstable/entry.c:31`. -/
def JBuf.decl (b : JBuf) (name : String) : JBuf :=
  ⟨declareJsonValue b.u (lit name) (b.started == 0), b.started + 1⟩

/-- Text appended to the `ubuf` (`ubuf_append`, `/repo/dnstable/entry.c:24-34`). -/
def JBuf.with (b : JBuf) (u : Bytes) : JBuf := { b with u := u }

/-- Conversion `%hu` or `%d` of `snprintf` for a non-negative number, `/repo/dnstable/entry.c:175,508`. -/
def decimal (n : Nat) : Bytes :=
  if n < 10 then [digitChar n] else decimal (n / 10) ++ [digitChar n]
termination_by n
decreasing_by omega

/-- The text of `fmt_rrtype_json`, `/repo/dnstable/entry.c:167-179`; the parameter is a `uint16_t`. -/
def rrtypeText (w : Wdns) (rrtype : Nat) : Bytes :=
  match w.rrtypeToStr (rrtype % 65536) with
  | some s => cstr s
  | none => lit "TYPE" ++ decimal (rrtype % 65536)

/-- `fmt_rrtype_json`, `/repo/dnstable/entry.c:167-179`. -/
def fmtRrtypeJson (w : Wdns) (u : Bytes) (rrtype : Nat) : Bytes := appendJsonValueString u (rrtypeText w rrtype)

/-- `JSON_ARR_DELIMIT`, `/repo/dnstable/entry.c:28-30`. -/
def arrDelimit (u : Bytes) (x y : Nat) : Bytes := if x + 1 < y then u ++ [44] else u

/-- The loop over the types, `/repo/dnstable/entry.c:217-220`. -/
def rrtypesLoop (w : Wdns) (total : Nat) (u : Bytes) : Nat → List Nat → Bytes
  | _, [] => u
  | n, t :: ts => rrtypesLoop w total (arrDelimit (fmtRrtypeJson w u t) n total) (n + 1) ts

/-- `fmt_rrtypes_union_json`, `/repo/dnstable/entry.c:204-225`. -/
def fmtRrtypesUnionJson (w : Wdns) (u : Bytes) (e : Entry) : Bytes :=
  let u := declareJsonValue u (lit "rrtypes") false
  let u := u ++ [91]
  let u := match e.rrtypeMap with
    | none => u
    | some map =>
      match unionUnpack map with
      | none => jsonStrAppend u (lit "<failure>")
      | some ts => rrtypesLoop w ts.length u 0 ts
  u ++ [93]

/-- The loop over the record data, `/repo/dnstable/entry.c:404-413`. -/
def rdatasLoop (w : Wdns) (rrtype total : Nat) (u : Bytes) : Nat → List Bytes → Bytes
  | _, [] => u
  | i, d :: ds => rdatasLoop w rrtype total (arrDelimit (jsonStrAppend u (w.rdataToStr d (rrtype % 65536))) i total)
      (i + 1) ds

/-- The loop over the raw record data, `/repo/dnstable/entry.c:421-441`: the type is encoded into a buffer
of three bytes (lines 430-431). -/
def rawLoop (rrtype total : Nat) (u : Bytes) : Nat → List Bytes → Out Bytes
  | _, [] => .ok u
  | i, d :: ds =>
    let enc := varintEncode32 rrtype
    if enc.length > 3 then .fault .oobWrite
    else
      let rbuf := fmtHexStr (fmtHexStr [] d) enc
      rawLoop rrtype total (arrDelimit (jsonStrAppend u rbuf) i total) (i + 1) ds

/-- `JSON_ARR_START` or `JSON_ARR_END` if the formatter asks for arrays, `/repo/dnstable/entry.c:456-457`
and the like. -/
def arrIf (b : Bool) (u : Bytes) (c : UInt8) : Bytes := if b then u ++ [c] else u

/-- The chosen `time_formatter`, `/repo/dnstable/entry.c:352-353`. -/
def timeJson (numbuf : Bytes) (gmtime : Int → Option Tm) (f : Formatter) (u : Bytes) (v : Nat) : Out Bytes :=
  if f.unixDates then appendJsonValueInt numbuf u v else fmtRfc3339TimeJson gmtime u v

/-- A domain name as a member value, `/repo/dnstable/entry.c:385-386` and the like. -/
def nameJson (w : Wdns) (u name : Bytes) : Out Bytes := do
  let s ← w.domainToStr name
  .ok (jsonStrAppend u s)

/-- The members common to RRsets and records, `/repo/dnstable/entry.c:358-391`. -/
def jsonCommon (numbuf : Bytes) (gmtime : Int → Option Tm) (w : Wdns) (f : Formatter) (e : Entry) (b : JBuf) :
    Out JBuf := do
  let b := b.decl "count"
  let b ← .ok (b.with (← appendJsonValueInt numbuf b.u e.count))
  let b := if e.iszone then b.decl "zone_time_first" else b.decl "time_first"
  let b ← .ok (b.with (← timeJson numbuf gmtime f b.u e.timeFirst))
  let b := if e.iszone then b.decl "zone_time_last" else b.decl "time_last"
  let b ← .ok (b.with (← timeJson numbuf gmtime f b.u e.timeLast))
  let b := b.decl "rrname"
  let b ← .ok (b.with (← nameJson w b.u e.name))
  let b := b.decl "rrtype"
  .ok (b.with (fmtRrtypeJson w b.u e.rrtype))

/-- The members of an RRset, `/repo/dnstable/entry.c:393-444`. -/
def jsonRrset (w : Wdns) (f : Formatter) (e : Entry) (b : JBuf) : Out JBuf := do
  let b := b.decl "bailiwick"
  let b ← .ok (b.with (← nameJson w b.u e.bailiwick))
  let b := b.decl "rdata"
  let b := b.with (b.u ++ [91])
  let b := b.with (rdatasLoop w e.rrtype e.rdatas.length b.u 0 e.rdatas)
  let b := b.with (b.u ++ [93])
  if f.addRawRdata then
    let b := b.decl "rdata_raw"
    let b := b.with (b.u ++ [91])
    let b ← .ok (b.with (← rawLoop e.rrtype e.rdatas.length b.u 0 e.rdatas))
    .ok (b.with (b.u ++ [93]))
  else .ok b

/-- The members of a record, `/repo/dnstable/entry.c:445-484`; without exactly one data the function gives
`NULL`. -/
def jsonRdata (w : Wdns) (f : Formatter) (e : Entry) (b : JBuf) : Out JBuf :=
  match e.rdatas with
  | [d] =>
    let b := b.decl "rdata"
    let b := b.with (arrIf f.alwaysArray b.u 91)
    let b := b.with (jsonStrAppend b.u (w.rdataToStr d (e.rrtype % 65536)))
    let b := b.with (arrIf f.alwaysArray b.u 93)
    if f.addRawRdata then
      let b := b.decl "rdata_raw"
      let b := b.with (arrIf f.alwaysArray b.u 91)
      let b := b.with (jsonStrAppend b.u (fmtHexStr [] d))
      .ok (b.with (arrIf f.alwaysArray b.u 93))
    else .ok b
  | _ => .fail

/-- A name index entry, `/repo/dnstable/entry.c:485-489,490-494`. -/
def jsonIndex (w : Wdns) (member : String) (e : Entry) (b : JBuf) : Out JBuf := do
  let b := b.decl member
  let b ← .ok (b.with (← nameJson w b.u e.name))
  .ok (b.with (fmtRrtypesUnionJson w b.u e))

/-- The time range, `/repo/dnstable/entry.c:495-499`. -/
def jsonTimes (numbuf : Bytes) (gmtime : Int → Option Tm) (f : Formatter) (e : Entry) (b : JBuf) : Out JBuf := do
  let b := b.decl "time_first"
  let b ← .ok (b.with (← timeJson numbuf gmtime f b.u e.timeFirst))
  let b := b.decl "time_last"
  .ok (b.with (← timeJson numbuf gmtime f b.u e.timeLast))

/-- The source description, `/repo/dnstable/entry.c:500-502`. -/
def jsonSource (e : Entry) (b : JBuf) : Out JBuf :=
  match e.sourceInfo with
  | none => .fault .nullDeref
  | some s =>
    let b := b.decl "source info"
    .ok (b.with (jsonStrAppend b.u s))

/-- A version, `/repo/dnstable/entry.c:503-515`; the type is printed as a `uint8_t`. -/
def jsonVersion (numbuf : Bytes) (e : Entry) (b : JBuf) : Out JBuf := do
  let vtype := match entryTypeToString e.vType with
    | some s => s
    | none => lit "unknown-" ++ decimal (e.vType % 256)
  let b := b.decl "entry_type"
  let b := b.with (jsonStrAppend b.u vtype)
  let b := b.decl "version"
  .ok (b.with (← appendJsonValueInt numbuf b.u e.version))

/-- `dnstable_entry_to_json_fmt`, `/repo/dnstable/entry.c:340-524`: the string, without its NUL.
`numbuf` stands for the initial contents of the buffers of `append_json_value_int`. -/
def entryToJsonFmt (numbuf : Bytes) (gmtime : Int → Option Tm) (w : Wdns) (f : Formatter) (e : Entry) :
    Out Bytes := do
  let b : JBuf := ⟨[123], 0⟩
  let b ← if e.eType = tRRSET ∨ e.eType = tRDATA then jsonCommon numbuf gmtime w f e b else .ok b
  let b ←
    if e.eType = tRRSET then jsonRrset w f e b
    else if e.eType = tRDATA then jsonRdata w f e b
    else if e.eType = tRRSET_NAME_FWD then jsonIndex w "rrset_name" e b
    else if e.eType = tRDATA_NAME_REV then jsonIndex w "rdata_name" e b
    else if e.eType = tTIME_RANGE then jsonTimes numbuf gmtime f e b
    else if e.eType = tSOURCE_INFO then jsonSource e b
    else if e.eType = tVERSION then jsonVersion numbuf e b
    else .ok b
  .ok (b.u ++ [125])

/-- `dnstable_entry_to_json`, `/repo/dnstable/entry.c:527-531`. -/
def entryToJson (numbuf : Bytes) (gmtime : Int → Option Tm) (w : Wdns) (e : Entry) : Out Bytes :=
  entryToJsonFmt numbuf gmtime w { unixDates := true, alwaysArray := false, addRawRdata := false } e

end Verif
