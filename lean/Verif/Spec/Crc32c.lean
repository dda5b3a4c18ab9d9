import Verif.Model.Base

/-!
# Specification: the checksum CRC-32C

The remainder of a division of polynomials over two elements, one bit at a time.
-/

namespace Verif.Spec

/-- One bit of the message enters the register.  Bit `i` of the register is the coefficient of the power 31 - `i`, and 0x82F63B78 has
the coefficients of Castagnoli's polynomial below the power 32. -/
def crcFeed (c : Nat) (bit : Bool) : Nat := if c.testBit 0 != bit then (c >>> 1) ^^^ 0x82F63B78 else c >>> 1

/-- The bits of a byte string, of each byte the lowest first. -/
def messageBits (x : Bytes) : List Bool := x.flatMap fun b => (List.range 8).map b.toNat.testBit

/-- CRC-32C: the register begins with all ones and is complemented at the end. -/
def castagnoli (x : Bytes) : Nat := (messageBits x).foldl crcFeed (2 ^ 32 - 1) ^^^ (2 ^ 32 - 1)

end Verif.Spec
