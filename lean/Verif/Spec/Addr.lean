import Verif.Model.Base

/-! # Specification: addresses and prefixes -/

namespace Verif.Spec

/-- Bit `i` of an address, counted from the most significant bit of the first byte. -/
def bitAt (x : Bytes) (i : Nat) : Bool := (x.getD (i / 8) 0).toNat.testBit (7 - i % 8)

/-- Two addresses agree in their first `n` bits. -/
def sameBits (n : Nat) (x a : Bytes) : Prop := ∀ i, i < n → bitAt x i = bitAt a i

end Verif.Spec
