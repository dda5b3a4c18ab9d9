import Verif.Model.Json

/-!
# Text output of entries (`/repo/dnstable/entry.c:63-82,154-165,181-202,227-338,551-558,594-605`)

Conversions of libc that depend on the locale are parameters.  A `ubuf` is the list of its bytes.
-/

namespace Verif

/-- What libc writes in the current locale (`/repo/src/dnstable_lookup.c:298` sets it from the environment). -/
structure Locale where
  /-- `snprintf` of a `uint64_t` with the conversion `%'` and `PRIu64`, `/repo/dnstable/entry.c:67` -/
  grouped : Nat → Bytes
  /-- `strftime` with the format of `/repo/dnstable/entry.c:80` -/
  clock : Tm → Bytes

/-- `fmt_uint64`, `/repo/dnstable/entry.c:63-69`: the buffer has 27 bytes, of which `snprintf` uses one for a NUL,
but returns the length of the whole text, which is the number of bytes then read from the buffer. -/
def fmtUint64 (L : Locale) (u : Bytes) (v : Nat) : Out Bytes :=
  let ret := (L.grouped v).length
  let s := (L.grouped v).take 26 ++ [0]
  if ret ≤ 27 then .ok (u ++ s.take ret) else .fault .oobRead

/-- `fmt_time`, `/repo/dnstable/entry.c:71-82`: `strftime` gives 0 unless text and NUL fit into the 32 bytes. -/
def fmtTime (gmtime : Int → Option Tm) (L : Locale) (u : Bytes) (v : Nat) : Bytes :=
  match gmtime (toTimeT v) with
  | none => u
  | some r =>
    let len := if (L.clock r).length < 32 then (L.clock r).length else 0
    if len > 0 then u ++ (L.clock r).take len else u

/-- `fmt_rrtype`, `/repo/dnstable/entry.c:154-165`; the text is that of `fmt_rrtype_json`. -/
def fmtRrtype (w : Wdns) (u : Bytes) (rrtype : Nat) : Bytes := u ++ rrtypeText w rrtype

/-- The loop over the types, `/repo/dnstable/entry.c:193-198`. -/
def rrtypesTextLoop (w : Wdns) (total : Nat) (u : Bytes) : Nat → List Nat → Bytes
  | _, [] => u
  | n, t :: ts =>
    let u := fmtRrtype w u t
    rrtypesTextLoop w total (if n + 1 < total then u ++ lit " " else u) (n + 1) ts

/-- `fmt_rrtypes_union`, `/repo/dnstable/entry.c:181-202`. -/
def fmtRrtypesUnion (w : Wdns) (u : Bytes) (e : Entry) : Bytes :=
  let u := u ++ lit " RRtypes=["
  let u := match e.rrtypeMap with
    | none => u
    | some map =>
      match unionUnpack map with
      | none => u ++ lit "<failure>"
      | some ts => rrtypesTextLoop w ts.length u 0 ts
  u ++ lit "] "

/-- The chosen `time_formatter`, `/repo/dnstable/entry.c:236`. -/
def timeText (gmtime : Int → Option Tm) (L : Locale) (unixDates : Bool) (u : Bytes) (v : Nat) : Out Bytes :=
  if unixDates then .ok (fmtTime gmtime L u v) else fmtRfc3339Time gmtime u v

/-- One resource record, `/repo/dnstable/entry.c:267-275,284-292`; `name` is the buffer filled by
`wdns_domain_to_str`. -/
def recordText (w : Wdns) (u name : Bytes) (rrtype : Nat) (d : Bytes) : Bytes :=
  let data := w.rdataToStr d (rrtype % 65536)
  let u := u ++ cstr name
  let u := u ++ lit " IN "
  let u := fmtRrtype w u rrtype
  let u := u ++ lit " "
  let u := u ++ cstr data
  u ++ [10]

/-- The loop over the resource records, `/repo/dnstable/entry.c:265-276`. -/
def recordsLoop (w : Wdns) (name : Bytes) (rrtype : Nat) (u : Bytes) : List Bytes → Bytes
  | [] => u
  | d :: ds => recordsLoop w name rrtype (recordText w u name rrtype d) ds

/-- An RRset, `/repo/dnstable/entry.c:238-276`. -/
def textRrset (gmtime : Int → Option Tm) (L : Locale) (w : Wdns) (unixDates : Bool) (e : Entry) (u : Bytes) :
    Out Bytes := do
  let name ← w.domainToStr e.bailiwick
  let u := u ++ lit ";;  bailiwick: "
  let u := u ++ cstr name
  let u := u ++ lit "\n;;      count: "
  let u ← fmtUint64 L u e.count
  let u := if e.iszone then u ++ lit "\n;; first seen in zone file: " else u ++ lit "\n;; first seen: "
  let u ← timeText gmtime L unixDates u e.timeFirst
  let u := if e.iszone then u ++ lit "\n;;  last seen in zone file: " else u ++ lit "\n;;  last seen: "
  let u ← timeText gmtime L unixDates u e.timeLast
  let u := u ++ [10]
  let name ← w.domainToStr e.name
  .ok (recordsLoop w name e.rrtype u e.rdatas)

/-- A record, `/repo/dnstable/entry.c:277-292`; without exactly one data the function gives `NULL`. -/
def textRdata (w : Wdns) (e : Entry) (u : Bytes) : Out Bytes :=
  match e.rdatas with
  | [d] => do
    let name ← w.domainToStr e.name
    .ok (recordText w u name e.rrtype d)
  | _ => .fail

/-- A name index entry, `/repo/dnstable/entry.c:293-302`. -/
def textIndex (w : Wdns) (tail : String) (e : Entry) (u : Bytes) : Out Bytes := do
  let name ← w.domainToStr e.name
  let u := u ++ cstr name
  let u := fmtRrtypesUnion w u e
  .ok (u ++ lit tail)

/-- The time range, `/repo/dnstable/entry.c:303-308`. -/
def textTimes (gmtime : Int → Option Tm) (L : Locale) (unixDates : Bool) (e : Entry) (u : Bytes) : Out Bytes := do
  let u := u ++ lit ";; Earliest time_first: "
  let u ← timeText gmtime L unixDates u e.timeFirst
  let u := u ++ lit "\n;; Latest time_last: "
  let u ← timeText gmtime L unixDates u e.timeLast
  .ok (u ++ [10])

/-- The source description, `/repo/dnstable/entry.c:309-312`. -/
def textSource (e : Entry) (u : Bytes) : Out Bytes :=
  match e.sourceInfo with
  | none => .fault .nullDeref
  | some s =>
    let u := u ++ lit ";; source info: "
    let u := u ++ cstr s
    .ok (u ++ [10])

/-- The entry type of a version, `/repo/dnstable/entry.c:315,318-323`. -/
def versionType (e : Entry) : Bytes :=
  match entryTypeToString e.vType with
  | none => decimal e.vType
  | some s => cstr s

/-- A version, `/repo/dnstable/entry.c:313-325`; the text always fits into its buffer. -/
def textVersion (e : Entry) (u : Bytes) : Out Bytes :=
  .ok (u ++ (lit ";; Version type " ++ versionType e ++ lit ": " ++ decimal e.version ++ [10]))

/-- `dnstable_entry_to_text_fmt`, `/repo/dnstable/entry.c:227-332`: the string, without its NUL. -/
def entryToTextFmt (gmtime : Int → Option Tm) (L : Locale) (w : Wdns) (unixDates : Bool) (e : Entry) : Out Bytes :=
  let u : Bytes := []
  if e.eType = tRRSET then textRrset gmtime L w unixDates e u
  else if e.eType = tRDATA then textRdata w e u
  else if e.eType = tRRSET_NAME_FWD then textIndex w " ;; rrset name fwd\n" e u
  else if e.eType = tRDATA_NAME_REV then textIndex w " ;; rdata name rev\n" e u
  else if e.eType = tTIME_RANGE then textTimes gmtime L unixDates e u
  else if e.eType = tSOURCE_INFO then textSource e u
  else if e.eType = tVERSION then textVersion e u
  else .ok u

/-- `dnstable_entry_to_text`, `/repo/dnstable/entry.c:334-338`. -/
def entryToText (gmtime : Int → Option Tm) (L : Locale) (w : Wdns) (e : Entry) : Out Bytes :=
  entryToTextFmt gmtime L w true e

/-- `dnstable_formatter_set_output_format`, `/repo/dnstable/entry.c:551-558`. -/
def Formatter.setOutputFormat (f : Formatter) (json : Bool) : Formatter := { f with json := json }

/-- `dnstable_entry_format`, `/repo/dnstable/entry.c:594-605`. -/
def entryFormat (numbuf : Bytes) (gmtime : Int → Option Tm) (L : Locale) (w : Wdns) (f : Formatter) (e : Entry) :
    Out Bytes :=
  if f.json then entryToJsonFmt numbuf gmtime w f e else entryToTextFmt gmtime L w f.unixDates e

end Verif
