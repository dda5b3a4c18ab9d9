import Verif.Spec.Records

/-! # Specification: order of observations -/

namespace Verif.Spec

/-- Times in order: earlier first-seen, or equal first-seen and no later last-seen. -/
def TimesLe (a b : Obs) : Prop := a.first < b.first ∨ (a.first = b.first ∧ a.last ≤ b.last)

instance (a b : Obs) : Decidable (TimesLe a b) := by unfold TimesLe; exact inferInstance

end Verif.Spec
