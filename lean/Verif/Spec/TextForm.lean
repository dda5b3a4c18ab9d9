import Verif.Spec.Calendar
import Verif.Spec.Json

/-!
# Specification: the text form of records

Lines, each a row of parts with a demand on every part; and a reader of zone file text.
-/

namespace Verif.Spec

/-- A demand on a piece of text. -/
abbrev Form := Bytes → Prop

/-- This text. -/
def exactly (s : Bytes) : Form := fun x => x = s

/-- A number, possibly with separators between its digits. -/
def amount (n : Nat) : Form := fun x => Numeral (x.filter fun c => decide (IsDigit c)) n

/-- Reads `YYYY-MM-DD hh:mm:ss -0000` and gives the time in seconds since 1970. -/
def readClock (s : Bytes) : Option Nat :=
  match s with
  | [y1, y2, y3, y4, 45, m1, m2, 45, d1, d2, 32, h1, h2, 58, n1, n2, 58, s1, s2, 32, 45, 48, 48, 48, 48] =>
    readStamp [y1, y2, y3, y4, 45, m1, m2, 45, d1, d2, 84, h1, h2, 58, n1, n2, 58, s1, s2, 90]
  | _ => none

/-- A time, in RFC 3339 form or as date, time and offset. -/
def timeForm (rfc : Bool) (t : Nat) : Form := fun x => if rfc then readStamp x = some t else readClock x = some t

/-- A record type: its name, or its number behind `TYPE` (RFC 3597). -/
def typeForm (T : Texts) (t : Nat) : Form := fun x =>
  match T.type t with
  | some s => x = s
  | none => ∃ d, x = [84, 89, 80, 69] ++ d ∧ Numeral d t

/-- The name of an entry type, or its number if it has none. -/
def kindForm (t : UInt8) : Form := fun x =>
  (t.toNat, x) ∈ entryTypeNames ∨ ((∀ s, (t.toNat, s) ∉ entryTypeNames) ∧ Numeral x t.toNat)

/-- A number. -/
def numberForm (n : Nat) : Form := fun x => Numeral x n

/-- The text consists of parts that meet the given demands, in this order. -/
def Written : List Form → Bytes → Prop
  | [], x => x = []
  | f :: fs, x => ∃ a b, x = a ++ b ∧ f a ∧ Written fs b

/-- The text consists of lines, each ended by a newline, that are written as demanded. -/
def HasLines (text : Bytes) (ls : List (List Form)) : Prop :=
  ∃ ss : List Bytes, text = ss.flatMap (· ++ [10]) ∧ (∀ s ∈ ss, 10 ∉ s) ∧ Aligned Written ls ss

/-- A resource record as in a zone file: owner, class, type and data. -/
def recordLine (T : Texts) (owner : Name) (rrtype : Nat) (d : Bytes) : List Form :=
  [exactly (T.name owner), exactly (ascii " IN "), typeForm T rrtype, exactly (ascii " "), exactly (T.data d rrtype)]

/-- Types, separated by blanks. -/
def typeForms (T : Texts) : List Nat → List Form
  | [] => []
  | [t] => [typeForm T t]
  | t :: ts => typeForm T t :: exactly (ascii " ") :: typeForms T ts

/-- An index entry. -/
def indexLine (T : Texts) (n : Name) (s : Option TypeSet) (tail : String) : List Form :=
  [exactly (T.name n), exactly (ascii " RRtypes=[")] ++
    (match s with
     | none => []
     | some s => typeForms T (sortedTypes fun t => s.has t)) ++
    [exactly (ascii "] "), exactly (ascii tail)]

/-- The lines of the text form of a record. -/
def textLines (T : Texts) (rfc zone : Bool) : Rec → List (List Form)
  | .rrset r o =>
    [[exactly (ascii ";;  bailiwick: "), exactly (T.name r.bailiwick)],
     [exactly (ascii ";;      count: "), amount o.fixed.count],
     [exactly (ascii (if zone then ";; first seen in zone file: " else ";; first seen: ")), timeForm rfc o.fixed.first],
     [exactly (ascii (if zone then ";;  last seen in zone file: " else ";;  last seen: ")), timeForm rfc o.fixed.last]] ++
    r.rdatas.map (recordLine T r.owner r.rrtype)
  | .rr r _ => [recordLine T r.owner r.rrtype r.rdata]
  | .fwd n s => [indexLine T n s " ;; rrset name fwd"]
  | .rev n s => [indexLine T n s " ;; rdata name rev"]
  | .timeRange a b =>
    [[exactly (ascii ";; Earliest time_first: "), timeForm rfc a], [exactly (ascii ";; Latest time_last: "), timeForm rfc b]]
  | .version t v => [[exactly (ascii ";; Version type "), kindForm t, exactly (ascii ": "), numberForm v]]
  | .sourceInfo s => [[exactly (ascii ";; source info: "), exactly s]]

/-! ## Reading a zone file -/

/-- The lines of a text; what follows the last newline is no line. -/
def splitLines (text : Bytes) : List Bytes := go [] text
where
  /-- `cur` is the line so far. -/
  go (cur : Bytes) : Bytes → List Bytes
    | [] => []
    | c :: s => if c = 10 then cur :: go [] s else go (cur ++ [c]) s

/-- The part before the first blank, and what follows it. -/
def field : Bytes → Option (Bytes × Bytes)
  | [] => none
  | c :: s => if c = 32 then some ([], s) else (field s).map fun r => (c :: r.1, r.2)

/-- A line `owner class type data`. -/
def readRecord (line : Bytes) : Option (Bytes × Bytes × Bytes × Bytes) := do
  let (owner, s) ← field line
  let (cls, s) ← field s
  let (type, data) ← field s
  some (owner, cls, type, data)

/-- The records of a zone file: what its lines other than comments say. -/
def readZone (text : Bytes) : List (Option (Bytes × Bytes × Bytes × Bytes)) :=
  ((splitLines text).filter fun l => l.head? != some 59).map readRecord

end Verif.Spec
