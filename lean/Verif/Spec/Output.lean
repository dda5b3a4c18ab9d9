import Verif.Spec.Lifetimes
import Verif.Model.OutputMem

/-!
# Specification: how programs may use formatters and strings

dnstable_entry(3): the strings returned by `dnstable_entry_to_text`, `dnstable_entry_to_json` and `dnstable_entry_format`
"must be freed" by the caller.  Entries and formatters given to these functions are not NULL.
-/

namespace Verif.Spec

/-- `wdns_domain_to_str` writes a string, or reads outside of the name, or fails an assertion. -/
def PlainNames (w : Wdns) : Prop :=
  ∀ n, (∃ s, w.domainToStr n = .ok s) ∨ w.domainToStr n = .fault .oobRead ∨ w.domainToStr n = .fault .abort

/-- The rules: those for objects, and no NULL pointers for the functions that make strings and the setters of formatters. -/
def permitted (ext : List Nat) (s : Client) : ClientCall → Bool
  | .object o => allowed ext s.objects o
  | .setFormatter f _ => live s.formatters f
  | .text e => live s.objects.entries e
  | .json e => live s.objects.entries e
  | .format f e => live s.formatters f && live s.objects.entries e
  | _ => true

/-- The call makes a query with a removal stage. -/
def callRemoval (s : Client) : ClientCall → Bool
  | .object o => removal s.objects o
  | _ => false

/-- The end of a program: everything that is left is destroyed, and all strings are freed. -/
def cleanupAll (s : Client) : List ClientCall :=
  (cleanup s.objects).map .object ++ ((List.range s.formatters.length).map .destroyFormatter ++
    (List.range s.strings.length).map .freeString)

/-- No pointer is left. -/
def NothingLeft (s : Client) : Prop :=
  AllNull s.objects ∧ (∀ f ∈ s.formatters, f = none) ∧ ∀ p ∈ s.strings, p = none

/-- The block is a C string with this text. -/
def HoldsString (p : Nat) (t : Bytes) (h : Heap) : Prop := mLoad p h = .ok (t ++ [0], h)

/-- The entry has what its type says: a name, a bailiwick, a source, one record. -/
structure WellFormed (m : EntryMem) : Prop where
  name : m.e.eType = tRRSET ∨ m.e.eType = tRDATA ∨ m.e.eType = tRRSET_NAME_FWD ∨ m.e.eType = tRDATA_NAME_REV →
    m.name.isSome
  bailiwick : m.e.eType = tRRSET → m.bailiwick.isSome
  source : m.e.eType = tSOURCE_INFO → m.sourceInfo.isSome ∧ m.e.sourceInfo.isSome
  record : m.e.eType = tRDATA → m.e.rdatas.length = 1

/-- The types of entries. -/
def knownTypes : List Nat := [tRRSET, tRRSET_NAME_FWD, tRDATA, tRDATA_NAME_REV, tSOURCE_INFO, tTIME_RANGE, tVERSION]

/-- An entry that passes for an RRset, but has neither name nor bailiwick. -/
def Typeless (m : EntryMem) : Prop := m.e.eType = tRRSET ∧ m.name = none ∧ m.bailiwick = none

/-- A call answers with a string: a new block with the text, which is the only change to the heap.  It does not answer NULL. -/
def Answers (s : Client) (h : Heap) (x : Mem Client) (o : Out Bytes) : Prop :=
  match o with
  | .ok t => ∃ p h', x h = .ok ({ s with strings := s.strings ++ [some p] }, h') ∧ h'.live = (p, t ++ [0]) :: h.live ∧
      p ∉ h.live.map Prod.fst
  | .fail => False
  | .fault f => x h = .fault f

/-- The settings that calls make with the formatter `f`, in order. -/
def settings (f : Nat) : List ClientCall → List FormatterCall
  | [] => []
  | .setFormatter g c :: cs => if g = f then c :: settings f cs else settings f cs
  | _ :: cs => settings f cs

/-- A formatter after some settings: for each option the last one counts. -/
def lastSetting {α : Type} (sel : FormatterCall → Option α) (default : α) (cs : List FormatterCall) : α :=
  ((cs.filterMap sel).getLast?).getD default

/-- The formatter that has these settings. -/
def configured (start : Formatter) (cs : List FormatterCall) : Formatter where
  json := lastSetting (fun c => match c with | .output b => some b | _ => none) start.json cs
  unixDates := lastSetting (fun c => match c with | .date b => some b | _ => none) start.unixDates cs
  alwaysArray := lastSetting (fun c => match c with | .array b => some b | _ => none) start.alwaysArray cs
  addRawRdata := lastSetting (fun c => match c with | .raw b => some b | _ => none) start.addRawRdata cs

end Verif.Spec
