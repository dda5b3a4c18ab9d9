import Verif.Model.Util

/-!
# Specification: symbolic names

The documented names (`/repo/man/dnstable_entry.3.txt`, `/repo/man/dnstable_query.3.txt`) and the values of
`/repo/dnstable/dnstable.h:42-50,69-87`, written as pairs.
-/

namespace Verif.Spec

/-- Entry types and their names. -/
def entryTypeNames : List (Nat × Bytes) :=
  [(0, lit "rrset"), (1, lit "rrset_name"), (2, lit "rdata"), (3, lit "rdata_name"), (253, lit "source_info"),
   (254, lit "time_range"), (255, lit "version")]

/-- Statistics stages and their names. -/
def stageNames : List (Nat × Bytes) :=
  [(0, lit "fileset"), (1, lit "single label"), (2, lit "rrtype"), (3, lit "bailiwick"),
   (4, lit "time prefilter"), (5, lit "remove strict"), (6, lit "fill merger"), (7, lit "left join"),
   (8, lit "time"), (9, lit "offset")]

/-- Statistics categories and their names. -/
def categoryNames : List (Nat × Bytes) :=
  [(0, lit "filtered"), (1, lit "merged"), (2, lit "seek"), (3, lit "files")]

/-- Equal, or the two cases of one ASCII letter. -/
def CaseEq (c d : UInt8) : Prop :=
  c = d ∨ (65 ≤ c.toNat ∧ c.toNat ≤ 90 ∧ d.toNat = c.toNat + 32) ∨
    (65 ≤ d.toNat ∧ d.toNat ≤ 90 ∧ c.toNat = d.toNat + 32)

/-- Equal up to the case of ASCII letters. -/
def SameText : Bytes → Bytes → Prop
  | [], [] => True
  | c :: s, d :: t => CaseEq c d ∧ SameText s t
  | _, _ => False

end Verif.Spec
