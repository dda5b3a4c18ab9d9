import Verif.Model.Base

/-!
# Specification: domain names as lists of labels
-/

namespace Verif.Spec

/-- A domain name: its labels, most specific first, without the root label. -/
abbrev Name := List Bytes

/-- A legal label has 1 to 63 bytes. -/
def legalLabel (l : Bytes) : Prop := 1 ≤ l.length ∧ l.length ≤ 63

/-- Uncompressed wire form of the labels, without the terminating root label. -/
def flat (n : Name) : Bytes := n.flatMap fun l => UInt8.ofNat l.length :: l

/-- Uncompressed wire form (RFC 1035 section 3.1). -/
def wire (n : Name) : Bytes := flat n ++ [0]

/-- All labels legal. -/
def legalLabels (n : Name) : Prop := ∀ l ∈ n, legalLabel l

/-- A legal name: legal labels, and at most 255 bytes on the wire. -/
def legalName (n : Name) : Prop := legalLabels n ∧ (wire n).length ≤ 255

/-- `sub` is `dom` itself or lies below it. -/
def underOrEq (sub dom : Name) : Prop := ∃ front, sub = front ++ dom

instance (l : Bytes) : Decidable (legalLabel l) := by unfold legalLabel; exact inferInstance
instance (n : Name) : Decidable (legalLabels n) := by unfold legalLabels; exact inferInstance
instance (n : Name) : Decidable (legalName n) := by unfold legalName; exact inferInstance

end Verif.Spec
