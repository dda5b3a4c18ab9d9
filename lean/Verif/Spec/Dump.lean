import Verif.Spec.LookupRun

/-!
# Specification: the output of `dnstable_dump`
-/

namespace Verif.Spec

/-- What can be dumped. -/
inductive Sect where
  | rrset | rdata | rrsetNames | rdataNames | timeRange | version | sourceInfo
deriving DecidableEq, Repr

/-- The records of a section. -/
def Sect.has : Sect → Rec → Bool
  | .rrset, .rrset _ _ => true
  | .rdata, .rr _ _ => true
  | .rrsetNames, .fwd _ _ => true
  | .rdataNames, .rev _ _ => true
  | .timeRange, .timeRange _ _ => true
  | .version, .version _ _ => true
  | .sourceInfo, .sourceInfo _ => true
  | _, _ => false

/-- The sections that contain record data. -/
def Sect.full : Sect → Bool
  | .rrset => true
  | .rdata => true
  | _ => false

/-- The lines dumped for a record without `-j`: its text form, and an empty line unless it is a resource record seen
from its data. -/
def dumpLines (T : Texts) (x : Rec) : List (List Form) :=
  textLines T false false x ++ match x with | .rr _ _ => [] | _ => [[]]

end Verif.Spec
