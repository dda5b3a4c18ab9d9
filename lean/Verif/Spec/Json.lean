import Verif.Spec.Calendar
import Verif.Spec.Store
import Verif.Spec.Symbols

/-!
# Specification: JSON texts and the JSON form of records

A reader of JSON, and what it should find in the text of a record.
-/

namespace Verif.Spec

/-- JSON values, without fractions, negative numbers and literals. -/
inductive JVal where
  | str (s : Bytes)
  | num (n : Nat)
  | arr (vs : List JVal)
  | obj (ms : List (Bytes × JVal))

/-- Reads a number (RFC 8259, section 6; natural numbers only): at least one digit, no leading zero. -/
def jsonNat (s : Bytes) : Option (Nat × Bytes) :=
  let d := s.takeWhile fun c => decide (IsDigit c)
  if d = [] ∨ (1 < d.length ∧ d.head? = some 48) then none
  else some (numval d, s.dropWhile fun c => decide (IsDigit c))

/- Readers of a value, of the rest of a non-empty array, and of the rest of a non-empty object (RFC 8259,
sections 3 to 5, without white space): what was read, and the text behind it.  The first argument bounds
the number of steps. -/
mutual

/-- Reads a value. -/
def jsonValue : Nat → Bytes → Option (JVal × Bytes)
  | 0, _ => none
  | _ + 1, [] => none
  | n + 1, c :: s =>
    if c = 34 then (jsonString s).map fun r => (.str r.1, r.2)
    else if c = 91 then
      if s.head? = some 93 then some (.arr [], s.tail) else (jsonItems n s).map fun r => (.arr r.1, r.2)
    else if c = 123 then
      if s.head? = some 125 then some (.obj [], s.tail) else (jsonMembers n s).map fun r => (.obj r.1, r.2)
    else (jsonNat (c :: s)).map fun r => (.num r.1, r.2)

/-- Reads the items of an array up to its closing bracket. -/
def jsonItems : Nat → Bytes → Option (List JVal × Bytes)
  | 0, _ => none
  | n + 1, s =>
    match jsonValue n s with
    | some (v, c :: s) =>
      if c = 44 then (jsonItems n s).map fun r => (v :: r.1, r.2)
      else if c = 93 then some ([v], s)
      else none
    | _ => none

/-- Reads the members of an object up to its closing brace. -/
def jsonMembers : Nat → Bytes → Option (List (Bytes × JVal) × Bytes)
  | 0, _ => none
  | n + 1, s =>
    match s with
    | [] => none
    | q :: s =>
      if q ≠ 34 then none
      else
        match jsonString s with
        | some (k, col :: s) =>
          if col ≠ 58 then none
          else
            match jsonValue n s with
            | some (v, c :: s) =>
              if c = 44 then (jsonMembers n s).map fun r => ((k, v) :: r.1, r.2)
              else if c = 125 then some ([(k, v)], s)
              else none
            | _ => none
        | _ => none

end

/-- The value of a whole JSON text. -/
def readJson (s : Bytes) : Option JVal :=
  match jsonValue (s.length + 1) s with
  | some (v, []) => some v
  | _ => none

/-! ## What to find in the text of a record -/

/-- Texts of names, types and record data, as made by the DNS library: a type may have no name. -/
structure Texts where
  name : Name → Bytes
  type : Nat → Option Bytes
  data : Bytes → Nat → Bytes

/-- The settings: times as numbers or in RFC 3339 form, the data of a record as an array, raw data too. -/
structure Style where
  unix : Bool
  array : Bool
  raw : Bool

/-- A demand on a JSON value. -/
abbrev Want := JVal → Prop

/-- Two lists correspond item by item. -/
def Aligned {α β : Type} (R : α → β → Prop) : List α → List β → Prop
  | [], [] => True
  | a :: as, b :: bs => R a b ∧ Aligned R as bs
  | _, _ => False

/-- A string. -/
def isText (s : Bytes) : Want := fun v => v = .str s

/-- A number. -/
def isNat (n : Nat) : Want := fun v => v = .num n

/-- A time. -/
def isTime (st : Style) (t : Nat) : Want := fun v =>
  if st.unix then v = .num t else ∃ s, v = .str s ∧ readStamp s = some t

/-- A record type: its name, or its number behind `TYPE` (RFC 3597). -/
def isType (T : Texts) (t : Nat) : Want := fun v =>
  match T.type t with
  | some s => v = .str s
  | none => ∃ d, v = .str ([84, 89, 80, 69] ++ d) ∧ Numeral d t

/-- Bytes in hexadecimal. -/
def isHexOf (bs : Bytes) : Want := fun v => ∃ s, v = .str s ∧ Hex s bs

/-- An array whose items meet the given demands, one by one. -/
def isList (ws : List Want) : Want := fun v => ∃ vs, v = .arr vs ∧ Aligned (fun v w => w v) vs ws

/-- The name of an entry type in version metadata. -/
def isKind (t : UInt8) : Want := fun v =>
  (∃ s, (t.toNat, s) ∈ entryTypeNames ∧ v = .str s) ∨
    ((∀ s, (t.toNat, s) ∉ entryTypeNames) ∧
      ∃ d, v = .str ([117, 110, 107, 110, 111, 119, 110, 45] ++ d) ∧ Numeral d t.toNat)

/-- The bytes of an ASCII text. -/
def ascii (s : String) : Bytes := s.toList.map fun c => UInt8.ofNat c.toNat

/-- Count, times, owner and type of an RRset or record; the times are named after the kind of source. -/
def sighting (T : Texts) (st : Style) (zone : Bool) (owner : Name) (rrtype : Nat) (o : Obs) : List (Bytes × Want) :=
  [(ascii "count", isNat o.fixed.count),
   (ascii (if zone then "zone_time_first" else "time_first"), isTime st o.fixed.first),
   (ascii (if zone then "zone_time_last" else "time_last"), isTime st o.fixed.last),
   (ascii "rrname", isText (T.name owner)),
   (ascii "rrtype", isType T rrtype)]

/-- The types of an index entry; none if they are not recorded. -/
def isTypes (T : Texts) : Option TypeSet → Want
  | none => isList []
  | some s => isList ((sortedTypes fun t => s.has t).map (isType T))

/-- The members of the JSON object of a record, in order. -/
def shown (T : Texts) (st : Style) (zone : Bool) : Rec → List (Bytes × Want)
  | .rrset r o =>
    sighting T st zone r.owner r.rrtype o ++
      [(ascii "bailiwick", isText (T.name r.bailiwick)),
       (ascii "rdata", isList (r.rdatas.map fun d => isText (T.data d r.rrtype)))] ++
      (if st.raw then [(ascii "rdata_raw", isList (r.rdatas.map fun d => isHexOf (d ++ leb r.rrtype)))] else [])
  | .rr r o =>
    sighting T st zone r.owner r.rrtype o ++
      [(ascii "rdata",
        if st.array then isList [isText (T.data r.rdata r.rrtype)] else isText (T.data r.rdata r.rrtype))] ++
      (if st.raw then [(ascii "rdata_raw", if st.array then isList [isHexOf r.rdata] else isHexOf r.rdata)] else [])
  | .fwd n s => [(ascii "rrset_name", isText (T.name n)), (ascii "rrtypes", isTypes T s)]
  | .rev n s => [(ascii "rdata_name", isText (T.name n)), (ascii "rrtypes", isTypes T s)]
  | .timeRange a b => [(ascii "time_first", isTime st a), (ascii "time_last", isTime st b)]
  | .version t v => [(ascii "entry_type", isKind t), (ascii "version", isNat v)]
  | .sourceInfo s => [(ascii "source info", isText s)]

/-- The text is a JSON object whose members are the given ones, with the given values, in this order. -/
def Shows (text : Bytes) (ms : List (Bytes × Want)) : Prop :=
  ∃ vs, readJson text = some (.obj vs) ∧ Aligned (fun m w => m.1 = w.1 ∧ w.2 m.2) vs ms

end Verif.Spec
