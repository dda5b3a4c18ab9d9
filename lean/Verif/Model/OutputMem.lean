import Verif.Model.ReaderMem
import Verif.Model.TextForm

/-!
# Output of entries in memory (`/repo/dnstable/entry.c:50-55,227-605`)

The output functions of `Verif.Model.TextForm` and `Verif.Model.Json` again, with the blocks they allocate: the `ubuf` of the
text, the strings of `wdns_rdata_to_str`, the `ubuf` of raw data, and the string that is returned.  The data of an entry is
read in the blocks of the entry, where these have contents; text that is made without allocations is that of the functions
without memory.  As elsewhere, `realloc` keeps the number of a block.
-/

namespace Verif

/-! ## Buffers -/

/-- Writing to a block (`memcpy` in `name##_append`, `/repo/libmy/vector.h:95-102`). -/
def mStore (p : Nat) (b : Bytes) : Mem Unit := fun h =>
  if p ∈ h.live.map Prod.fst then .ok ((), { h with live := h.live.map fun x => if x.1 = p then (p, b) else x })
  else .fault .useAfterFree

/-- A function that appends to a `ubuf` (`ubuf_append`, `/repo/libmy/vector.h:95-102`): from the bytes before to the bytes
after, and what else it gives. -/
def ubufMem {α : Type} (u : VecMem) (f : Bytes → Out (Bytes × α)) : Mem α := do
  mTouch u.self
  let b ← mLoad u.arr
  let r ← mPure (f b)
  mStore u.arr r.1
  pure r.2

/-- A function that appends to a `ubuf` and gives nothing (`ubuf_append`, `/repo/libmy/vector.h:95-102`). -/
def ubufTextMem (u : VecMem) (f : Bytes → Out Bytes) : Mem Unit :=
  ubufMem u fun b => do
    let b ← f b
    .ok (b, ())

/-- `ubuf_append`, `ubuf_append_cstr_lit` or `ubuf_add`, `/repo/libmy/vector.h:80-102`, `/repo/libmy/ubuf.h:32`. -/
def ubufAddMem (u : VecMem) (s : Bytes) : Mem Unit := ubufTextMem u fun b => .ok (b ++ s)

/-- `ubuf_add_cstr`, `/repo/libmy/ubuf.h:50-56`: a NUL at the end of the buffer is removed first. -/
def addCstrTo (b s : Bytes) : Bytes := (if b.getLast? = some 0 then b.dropLast else b) ++ cstr s

/-- `ubuf_add_cstr`, `/repo/libmy/ubuf.h:50-56`. -/
def ubufAddCstrMem (u : VecMem) (s : Bytes) : Mem Unit := ubufTextMem u fun b => .ok (addCstrTo b s)

/-- `ubuf_cterm`, `/repo/libmy/ubuf.h:58-66`: a NUL is appended unless there is one at the end. -/
def addNul (b : Bytes) : Bytes := if b.getLast? = some 0 then b else b ++ [0]

/-- `ubuf_detach`, `/repo/libmy/vector.h:50-59`: the array, and the `ubuf` with a new one. -/
def ubufDetachMem (u : VecMem) : Mem (Nat × VecMem) := do
  mTouch u.self
  let a ← mAlloc []
  pure (u.arr, { u with arr := a })

/-- `ubuf_cterm`, `ubuf_detach`, `ubuf_destroy`, `/repo/dnstable/entry.c:327-330,434-436,476-478,519-522`: the array becomes
a string. -/
def ubufStringMem (u : VecMem) : Mem Nat := do
  ubufTextMem u fun b => .ok (addNul b)
  let (s, u) ← ubufDetachMem u
  vecDestroyMem (some u)
  pure s

/-- The end of the output functions, `/repo/dnstable/entry.c:327-331,519-523`: the string, which is NULL after `goto out`. -/
def ubufFinishMem (u : VecMem) (out : Bool) : Mem (Option Nat) :=
  if out then do
    vecDestroyMem (some u)
    pure none
  else do
    let s ← ubufStringMem u
    pure (some s)

/-- The data of a name (`e->name.data`, `/repo/dnstable/entry.c:264`). -/
def ptrLoadMem : Option Nat → Mem Bytes
  | none => mPure (.fault .nullDeref)
  | some p => mLoad p

/-- Access to a `ubuf` that may be NULL (`e->rrtype_map`, `/repo/dnstable/entry.c:188`). -/
def vecTouchIfMem : Option VecMem → Mem Unit
  | none => pure ()
  | some v => vecTouchMem v

/-- `wdns_rdata_to_str` of an element of the vector, `/repo/dnstable/entry.c:266-268,405-407`: a new string. -/
def rdataStrMem (w : Wdns) (v : VecMem) (rrtype p : Nat) : Mem Nat := do
  vecTouchMem v
  let d ← mLoad p
  mAlloc (w.rdataToStr d (rrtype % 65536) ++ [0])

/-! ## Text -/

/-- One resource record, `/repo/dnstable/entry.c:266-275,282-292`. -/
def recordMem (w : Wdns) (u v : VecMem) (name : Bytes) (rrtype p : Nat) : Mem Unit := do
  let data ← rdataStrMem w v rrtype p
  ubufAddCstrMem u name
  ubufAddMem u (lit " IN ")
  ubufTextMem u fun b => .ok (fmtRrtype w b rrtype)
  ubufAddMem u (lit " ")
  let s ← mLoad data
  ubufAddCstrMem u s
  ubufAddMem u [10]
  mFree (some data)

/-- The loop over the resource records, `/repo/dnstable/entry.c:265-276`. -/
def recordsMem (w : Wdns) (u v : VecMem) (name : Bytes) (rrtype : Nat) : List Nat → Mem Unit
  | [] => pure ()
  | p :: ps => do
    recordMem w u v name rrtype p
    recordsMem w u v name rrtype ps

/-- An RRset, `/repo/dnstable/entry.c:238-276`. -/
def textRrsetMem (gmtime : Int → Option Tm) (L : Locale) (w : Wdns) (unixDates : Bool) (m : EntryMem) (u : VecMem) :
    Mem Unit := do
  let bailiwick ← ptrLoadMem m.bailiwick
  let name ← mPure (w.domainToStr bailiwick)
  ubufAddMem u (lit ";;  bailiwick: ")
  ubufAddCstrMem u name
  ubufAddMem u (lit "\n;;      count: ")
  ubufTextMem u (fmtUint64 L · m.e.count)
  ubufAddMem u (if m.e.iszone then lit "\n;; first seen in zone file: " else lit "\n;; first seen: ")
  ubufTextMem u (timeText gmtime L unixDates · m.e.timeFirst)
  ubufAddMem u (if m.e.iszone then lit "\n;;  last seen in zone file: " else lit "\n;;  last seen: ")
  ubufTextMem u (timeText gmtime L unixDates · m.e.timeLast)
  ubufAddMem u [10]
  let owner ← ptrLoadMem m.name
  let name ← mPure (w.domainToStr owner)
  vecTouchMem m.vec
  recordsMem w u m.vec name m.e.rrtype m.rdatas

/-- A record, `/repo/dnstable/entry.c:277-292`: whether the function goes to `out`. -/
def textRdataMem (w : Wdns) (m : EntryMem) (u : VecMem) : Mem Bool := do
  vecTouchMem m.vec
  match m.rdatas with
  | [p] =>
    let owner ← ptrLoadMem m.name
    let name ← mPure (w.domainToStr owner)
    recordMem w u m.vec name m.e.rrtype p
    pure false
  | _ => pure true

/-- A name index entry, `/repo/dnstable/entry.c:293-302`. -/
def textIndexMem (w : Wdns) (tail : String) (m : EntryMem) (u : VecMem) : Mem Unit := do
  let owner ← ptrLoadMem m.name
  let name ← mPure (w.domainToStr owner)
  ubufAddCstrMem u name
  vecTouchIfMem m.rrtypeMap
  ubufTextMem u fun b => .ok (fmtRrtypesUnion w b m.e)
  ubufAddMem u (lit tail)

/-- The source description, `/repo/dnstable/entry.c:309-312`. -/
def textSourceMem (m : EntryMem) (u : VecMem) : Mem Unit := do
  match m.sourceInfo, m.e.sourceInfo with
  | some v, some s =>
    ubufAddMem u (lit ";; source info: ")
    vecTouchMem v
    ubufAddCstrMem u s
    ubufAddMem u [10]
  | _, _ => mPure (.fault .nullDeref)

/-- The cases of `dnstable_entry_to_text_fmt`, `/repo/dnstable/entry.c:238-325`: whether the function goes to `out`. -/
def textKindMem (gmtime : Int → Option Tm) (L : Locale) (w : Wdns) (unixDates : Bool) (m : EntryMem) (u : VecMem) :
    Mem Bool := do
  mTouch m.self
  if m.e.eType = tRRSET then do
    textRrsetMem gmtime L w unixDates m u
    pure false
  else if m.e.eType = tRDATA then textRdataMem w m u
  else if m.e.eType = tRRSET_NAME_FWD then do
    textIndexMem w " ;; rrset name fwd\n" m u
    pure false
  else if m.e.eType = tRDATA_NAME_REV then do
    textIndexMem w " ;; rdata name rev\n" m u
    pure false
  else if m.e.eType = tTIME_RANGE then do
    ubufTextMem u (textTimes gmtime L unixDates m.e)
    pure false
  else if m.e.eType = tSOURCE_INFO then do
    textSourceMem m u
    pure false
  else if m.e.eType = tVERSION then do
    ubufTextMem u (textVersion m.e)
    pure false
  else pure false

/-- `dnstable_entry_to_text_fmt`, `/repo/dnstable/entry.c:227-332`: the block of the string, or NULL. -/
def entryToTextMem (gmtime : Int → Option Tm) (L : Locale) (w : Wdns) (unixDates : Bool) (m : EntryMem) :
    Mem (Option Nat) := do
  let u ← vecInitMem
  let out ← textKindMem gmtime L w unixDates m u
  ubufFinishMem u out

/-! ## JSON -/

/-- A function that appends members to the `ubuf`; the variable `started` is given and returned
(`/repo/dnstable/entry.c:31,350`). -/
def jbufMem (u : VecMem) (started : Nat) (f : JBuf → Out JBuf) : Mem Nat :=
  ubufMem u fun b => do
    let r ← f ⟨b, started⟩
    .ok (r.u, r.started)

/-- The string of record data, appended and freed, `/repo/dnstable/entry.c:406-409,452-460`. -/
def jsonDataMem (w : Wdns) (u v : VecMem) (rrtype p : Nat) : Mem Unit := do
  let data ← rdataStrMem w v rrtype p
  let s ← mLoad data
  ubufTextMem u fun b => .ok (jsonStrAppend b s)
  mFree (some data)

/-- The loop over the record data, `/repo/dnstable/entry.c:404-413`. -/
def rdatasMem (w : Wdns) (u v : VecMem) (rrtype total : Nat) : Nat → List Nat → Mem Unit
  | _, [] => pure ()
  | i, p :: ps => do
    jsonDataMem w u v rrtype p
    ubufTextMem u fun b => .ok (arrDelimit b i total)
    rdatasMem w u v rrtype total (i + 1) ps

/-- The text of raw record data in `rbuf`, `/repo/dnstable/entry.c:427-433,475`; `tail` is what follows the data: the type
of RRsets, encoded into a buffer of three bytes. -/
def rawTextMem (rbuf : VecMem) (d : Bytes) (tail : Option Nat) : Mem Unit := do
  ubufTextMem rbuf fun b => .ok (fmtHexStr b d)
  match tail with
  | none => pure ()
  | some rrtype => ubufTextMem rbuf fun b =>
    if (varintEncode32 rrtype).length > 3 then .fault .oobWrite else .ok (fmtHexStr b (varintEncode32 rrtype))

/-- The string of raw record data, `/repo/dnstable/entry.c:422-436,471-478`. -/
def rawStrMem (v : VecMem) (tail : Option Nat) (p : Nat) : Mem Nat := do
  vecTouchMem v
  let d ← mLoad p
  let rbuf ← vecInitMem
  rawTextMem rbuf d tail
  ubufStringMem rbuf

/-- The string of raw record data, appended and freed, `/repo/dnstable/entry.c:422-438,471-480`. -/
def jsonRawMem (u v : VecMem) (tail : Option Nat) (p : Nat) : Mem Unit := do
  let str ← rawStrMem v tail p
  let s ← mLoad str
  ubufTextMem u fun b => .ok (jsonStrAppend b s)
  mFree (some str)

/-- The loop over the raw record data, `/repo/dnstable/entry.c:421-441`. -/
def rawsMem (u v : VecMem) (rrtype total : Nat) : Nat → List Nat → Mem Unit
  | _, [] => pure ()
  | i, p :: ps => do
    jsonRawMem u v (some rrtype) p
    ubufTextMem u fun b => .ok (arrDelimit b i total)
    rawsMem u v rrtype total (i + 1) ps

/-- The members common to RRsets and records, `/repo/dnstable/entry.c:358-391`. -/
def jsonCommonMem (numbuf : Bytes) (gmtime : Int → Option Tm) (w : Wdns) (f : Formatter) (m : EntryMem) (u : VecMem) :
    Mem Nat := do
  let owner ← ptrLoadMem m.name
  jbufMem u 0 (jsonCommon numbuf gmtime w f { m.e with name := owner })

/-- The members of an RRset, `/repo/dnstable/entry.c:393-444`. -/
def jsonRrsetMem (w : Wdns) (f : Formatter) (m : EntryMem) (u : VecMem) (started : Nat) : Mem Unit := do
  let bailiwick ← ptrLoadMem m.bailiwick
  let started ← jbufMem u started fun b => do
    let b := b.decl "bailiwick"
    let b ← .ok (b.with (← nameJson w b.u bailiwick))
    let b := b.decl "rdata"
    .ok (b.with (b.u ++ [91]))
  vecTouchMem m.vec
  rdatasMem w u m.vec m.e.rrtype m.rdatas.length 0 m.rdatas
  ubufAddMem u [93]
  if f.addRawRdata then do
    let _ ← jbufMem u started fun b =>
      let b := b.decl "rdata_raw"
      .ok (b.with (b.u ++ [91]))
    rawsMem u m.vec m.e.rrtype m.rdatas.length 0 m.rdatas
    ubufAddMem u [93]
  else pure ()

/-- The members of a record, `/repo/dnstable/entry.c:445-484`: whether the function goes to `out`. -/
def jsonRdataMem (w : Wdns) (f : Formatter) (m : EntryMem) (u : VecMem) (started : Nat) : Mem Bool := do
  vecTouchMem m.vec
  match m.rdatas with
  | [p] =>
    let started ← jbufMem u started fun b =>
      let b := b.decl "rdata"
      .ok (b.with (arrIf f.alwaysArray b.u 91))
    jsonDataMem w u m.vec m.e.rrtype p
    ubufTextMem u fun b => .ok (arrIf f.alwaysArray b 93)
    if f.addRawRdata then do
      let _ ← jbufMem u started fun b =>
        let b := b.decl "rdata_raw"
        .ok (b.with (arrIf f.alwaysArray b.u 91))
      jsonRawMem u m.vec none p
      ubufTextMem u fun b => .ok (arrIf f.alwaysArray b 93)
      pure false
    else pure false
  | _ => pure true

/-- A name index entry, `/repo/dnstable/entry.c:485-489,490-494`. -/
def jsonIndexMem (w : Wdns) (member : String) (m : EntryMem) (u : VecMem) (started : Nat) : Mem Nat := do
  let owner ← ptrLoadMem m.name
  vecTouchIfMem m.rrtypeMap
  jbufMem u started (jsonIndex w member { m.e with name := owner })

/-- The source description, `/repo/dnstable/entry.c:500-502`. -/
def jsonSourceMem (m : EntryMem) (u : VecMem) (started : Nat) : Mem Nat := do
  match m.sourceInfo with
  | some v =>
    vecTouchMem v
    jbufMem u started (jsonSource m.e)
  | none => mPure (.fault .nullDeref)

/-- The cases of `dnstable_entry_to_json_fmt`, `/repo/dnstable/entry.c:393-515`: whether the function goes to `out`. -/
def jsonKindMem (numbuf : Bytes) (gmtime : Int → Option Tm) (w : Wdns) (f : Formatter) (m : EntryMem) (u : VecMem)
    (started : Nat) : Mem Bool :=
  if m.e.eType = tRRSET then do
    jsonRrsetMem w f m u started
    pure false
  else if m.e.eType = tRDATA then jsonRdataMem w f m u started
  else if m.e.eType = tRRSET_NAME_FWD then do
    let _ ← jsonIndexMem w "rrset_name" m u started
    pure false
  else if m.e.eType = tRDATA_NAME_REV then do
    let _ ← jsonIndexMem w "rdata_name" m u started
    pure false
  else if m.e.eType = tTIME_RANGE then do
    let _ ← jbufMem u started (jsonTimes numbuf gmtime f m.e)
    pure false
  else if m.e.eType = tSOURCE_INFO then do
    let _ ← jsonSourceMem m u started
    pure false
  else if m.e.eType = tVERSION then do
    let _ ← jbufMem u started (jsonVersion numbuf m.e)
    pure false
  else pure false

/-- The body of `dnstable_entry_to_json_fmt`, `/repo/dnstable/entry.c:356-517`: whether the function goes to `out`. -/
def jsonBodyMem (numbuf : Bytes) (gmtime : Int → Option Tm) (w : Wdns) (f : Formatter) (m : EntryMem) (u : VecMem) :
    Mem Bool := do
  ubufAddMem u [123]
  mTouch m.self
  let started ←
    if m.e.eType = tRRSET ∨ m.e.eType = tRDATA then jsonCommonMem numbuf gmtime w f m u else pure 0
  let out ← jsonKindMem numbuf gmtime w f m u started
  if out then pure true
  else do
    ubufAddMem u [125]
    pure false

/-- `dnstable_entry_to_json_fmt`, `/repo/dnstable/entry.c:340-524`: the block of the string, or NULL. -/
def entryToJsonMem (numbuf : Bytes) (gmtime : Int → Option Tm) (w : Wdns) (f : Formatter) (m : EntryMem) :
    Mem (Option Nat) := do
  let u ← vecInitMem
  let out ← jsonBodyMem numbuf gmtime w f m u
  ubufFinishMem u out

/-! ## Formatters -/

/-- A formatter and its block (`struct dnstable_formatter`, `/repo/dnstable/entry.c:50-55`). -/
structure FormatterMem where
  self : Nat
  f : Formatter := {}
deriving DecidableEq, Repr

/-- The settings of a formatter (`/repo/dnstable/entry.c:551-592`). -/
inductive FormatterCall where
  | output (json : Bool)
  | date (unix : Bool)
  | array (b : Bool)
  | raw (b : Bool)
deriving DecidableEq, Repr

/-- What a setting does (`/repo/dnstable/entry.c:551-592`). -/
def Formatter.call (f : Formatter) : FormatterCall → Formatter
  | .output b => f.setOutputFormat b
  | .date b => f.setDateFormat b
  | .array b => f.setRdataArray b
  | .raw b => f.setRawRdata b

/-- `dnstable_formatter_init`, `/repo/dnstable/entry.c:533-542`. -/
def formatterInitMem : Mem FormatterMem := do
  let p ← mAlloc []
  pure { self := p }

/-- `dnstable_formatter_destroy`, `/repo/dnstable/entry.c:544-549`; the caller's pointer is left as NULL. -/
def formatterDestroyMem : Option FormatterMem → Mem (Option FormatterMem)
  | none => pure none
  | some m => do
    mFree (some m.self)
    pure none

/-- The setters, `/repo/dnstable/entry.c:551-592`: NULL fails an assertion. -/
def formatterCallMem (c : FormatterCall) : Option FormatterMem → Mem (Option FormatterMem)
  | none => mPure (.fault .abort)
  | some m => do
    mTouch m.self
    pure (some { m with f := m.f.call c })

/-- The functions of the system that output depends on: the initial contents of the number buffers of
`/repo/dnstable/dnstable-json.h`, `gmtime_r` (`/repo/dnstable/entry.c:76,110`), the locale, libwdns. -/
structure Render where
  numbuf : Bytes
  gmtime : Int → Option Tm
  locale : Locale
  wdns : Wdns

/-- `dnstable_entry_format`, `/repo/dnstable/entry.c:594-605`. -/
def entryFormatMem (E : Render) (f : FormatterMem) (m : EntryMem) : Mem (Option Nat) := do
  mTouch f.self
  if f.f.json then entryToJsonMem E.numbuf E.gmtime E.wdns f.f m
  else entryToTextMem E.gmtime E.locale E.wdns f.f.unixDates m

/-! ## Programs with output -/

/-- A call by a program: those of `Op`, and the functions for output (`/repo/dnstable/entry.c:334-338,527-605`); `freeString`
is `free` on a string returned before. -/
inductive ClientCall where
  | object (o : Op)
  | newFormatter
  | setFormatter (f : Nat) (c : FormatterCall)
  | destroyFormatter (f : Nat)
  | text (e : Nat)
  | json (e : Nat)
  | format (f e : Nat)
  | freeString (i : Nat)

/-- The pointers of a program, with formatters and strings.  (Glue of the model; the types are those of
`/repo/dnstable/dnstable.h`.) -/
structure Client where
  objects : Session := {}
  formatters : List (Option FormatterMem) := []
  strings : List (Option Nat) := []

/-- A call: the pointers afterwards (see `ClientCall` for the places in `/repo/`). -/
def callMem (A : Arith) (L : Libs) (E : Render) (s : Client) : ClientCall → Mem Client
  | .object o => do
    let x ← opMem A L s.objects o
    pure { s with objects := x }
  | .newFormatter => do
    let f ← formatterInitMem
    pure { s with formatters := s.formatters ++ [some f] }
  | .setFormatter f c => do
    let m ← formatterCallMem c (pointer s.formatters f)
    pure { s with formatters := s.formatters.set f m }
  | .destroyFormatter f => do
    let m ← formatterDestroyMem (pointer s.formatters f)
    pure { s with formatters := s.formatters.set f m }
  | .text e =>
    match pointer s.objects.entries e with
    | none => mPure (.fault .nullDeref)
    | some m => do
      let p ← entryToTextMem E.gmtime E.locale E.wdns true m
      pure { s with strings := s.strings ++ [p] }
  | .json e =>
    match pointer s.objects.entries e with
    | none => mPure (.fault .nullDeref)
    | some m => do
      let p ← entryToJsonMem E.numbuf E.gmtime E.wdns { unixDates := true, alwaysArray := false, addRawRdata := false } m
      pure { s with strings := s.strings ++ [p] }
  | .format f e =>
    match pointer s.formatters f, pointer s.objects.entries e with
    | none, _ => mPure (.fault .abort)
    | _, none => mPure (.fault .nullDeref)
    | some f, some m => do
      let p ← entryFormatMem E f m
      pure { s with strings := s.strings ++ [p] }
  | .freeString i => do
    mFree (pointer s.strings i)
    pure { s with strings := s.strings.set i none }

/-- A program: those of its calls that keep to a rule are made.  (Glue of the model, no counterpart in `/repo/`; see
`ClientCall`.) -/
def callsMem (A : Arith) (L : Libs) (E : Render) (rule : Client → ClientCall → Bool) : Client → List ClientCall → Mem Client
  | s, [] => pure s
  | s, c :: cs =>
    if rule s c then do
      let s ← callMem A L E s c
      callsMem A L E rule s cs
    else callsMem A L E rule s cs

end Verif
