import Verif.Spec.Store
import Verif.Spec.TextForm

/-!
# Specification: the output of `dnstable_lookup`
-/

namespace Verif.Spec

/-- The lines written for a record without `-j` and `-J`: its text form, and an empty line after an RRset. -/
def outputLines (T : Texts) (x : Rec) : List (List Form) :=
  textLines T false false x ++ match x with | .rrset _ _ => [[]] | _ => []

/-- The text consists of one line for each of the records, in this order, that holds a JSON object with the members
of the record. -/
def JsonLines (T : Texts) (st : Style) (xs : List Rec) (text : Bytes) : Prop :=
  ∃ ss : List Bytes, text = ss.flatMap (· ++ [10]) ∧ (∀ s ∈ ss, 10 ∉ s) ∧
    Aligned (fun x s => Shows s (shown T st false x)) xs ss

/-- Nanoseconds in a number of seconds. -/
def seconds (n : Nat) : Int := n * 1000000000

end Verif.Spec
