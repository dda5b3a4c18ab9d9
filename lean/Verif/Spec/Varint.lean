import Verif.Model.Base

/-!
# What a variable-length integer is (dnstable-encoding(5), "varint")

Little-endian base 128; every byte but the last carries the continuation bit.
-/

namespace Verif.Spec

/-- The number denoted by a sequence of base-128 digits, least significant first.
(Format: `/repo/man/dnstable-encoding.5.txt`, LEB128-style varints.) -/
def leval : Bytes → Nat
  | [] => 0
  | b :: bs => b.toNat % 128 + 128 * leval bs

/-- Every byte but the last has the continuation bit, the last has not. -/
def terminated : Bytes → Prop
  | [] => False
  | [b] => b.toNat < 128
  | b :: b' :: bs => 128 ≤ b.toNat ∧ terminated (b' :: bs)

/-- The (unique minimal) varint encoding of a number. -/
def leb (v : Nat) : Bytes :=
  if v < 128 then [UInt8.ofNat v] else UInt8.ofNat (v % 128 + 128) :: leb (v / 128)
termination_by v
decreasing_by omega

end Verif.Spec
