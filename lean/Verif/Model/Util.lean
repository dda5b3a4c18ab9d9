import Verif.Model.Base

/-!
# Symbolic names (`/repo/dnstable/util.c`, `/repo/dnstable/entry.c:878-924`)

C strings are byte strings without their terminating NUL.
-/

namespace Verif

/-- The bytes of an ASCII string literal (as in `/repo/dnstable/util.c:20-29`). -/
def lit (s : String) : Bytes := s.toList.map fun c => UInt8.ofNat c.toNat

/-- `stage_strs`, `/repo/dnstable/util.c:19-30`, indexed by `dnstable_stat_stage`
(`/repo/dnstable/dnstable.h:69-80`). -/
def stageStrs : List Bytes :=
  [lit "fileset", lit "single label", lit "rrtype", lit "bailiwick", lit "time prefilter", lit "remove strict",
   lit "fill merger", lit "left join", lit "time", lit "offset"]

/-- `category_strs`, `/repo/dnstable/util.c:34-39`, indexed by `dnstable_stat_category`
(`/repo/dnstable/dnstable.h:82-87`). -/
def categoryStrs : List Bytes := [lit "filtered", lit "merged", lit "seek", lit "files"]

/-- `dnstable_stat_stage_to_str` and `dnstable_stat_category_to_str`, `/repo/dnstable/util.c:42-48,67-73`;
`none` is `NULL`. -/
def statToStr (tab : List Bytes) (i : Int) : Option Bytes :=
  if i < 0 ∨ i ≥ tab.length then none else tab[i.toNat]?

/-- `tolower` in the C locale, used by `strcasecmp` (`/repo/dnstable/util.c:58,83`). -/
def tolower (c : UInt8) : UInt8 := if 65 ≤ c ∧ c ≤ 90 then c + 32 else c

/-- `!strcasecmp(a, b)`, `/repo/dnstable/util.c:58,83`. -/
def sameNoCase (a b : Bytes) : Bool := a.map tolower == b.map tolower

/-- The loops of `dnstable_stat_str_to_stage` and `dnstable_stat_str_to_category`,
`/repo/dnstable/util.c:57-63,82-88`. -/
def statLoop (s : Bytes) : List Bytes → Nat → Out Nat
  | [], _ => .fail
  | t :: tab, i => if sameNoCase t s then .ok i else statLoop s tab (i + 1)

/-- `dnstable_stat_str_to_stage` and `dnstable_stat_str_to_category`, `/repo/dnstable/util.c:50-65,75-90`;
`none` is a `NULL` string. -/
def strToStat (tab : List Bytes) (s : Option Bytes) : Out Nat :=
  match s with
  | none => .fail
  | some [] => .fail
  | some s => statLoop s tab 0

/-- `dnstable_entry_type_to_string`, `/repo/dnstable/entry.c:878-899`. -/
def entryTypeToString (t : Nat) : Option Bytes :=
  if t = 0 then some (lit "rrset")
  else if t = 1 then some (lit "rrset_name")
  else if t = 2 then some (lit "rdata")
  else if t = 3 then some (lit "rdata_name")
  else if t = 254 then some (lit "time_range")
  else if t = 253 then some (lit "source_info")
  else if t = 255 then some (lit "version")
  else none

/-- The table of `dnstable_entry_type_from_string`, `/repo/dnstable/entry.c:906-918`. -/
def entryTypes : List (Bytes × Nat) :=
  [(lit "rrset", 0), (lit "rrset_name", 1), (lit "rdata", 2), (lit "rdata_name", 3), (lit "time_range", 254),
   (lit "source_info", 253), (lit "version", 255)]

/-- The loop of `dnstable_entry_type_from_string`, `/repo/dnstable/entry.c:920-926`. -/
def typeLoop (s : Bytes) : List (Bytes × Nat) → Out Nat
  | [] => .fail
  | (n, t) :: tab => if s ≠ n then typeLoop s tab else .ok t

/-- `dnstable_entry_type_from_string`, `/repo/dnstable/entry.c:901-927`. -/
def entryTypeFromString (s : Bytes) : Out Nat := typeLoop s entryTypes

end Verif
