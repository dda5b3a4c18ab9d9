import Verif.Model.Varint

/-!
# The 32-bit reader in the terms of the C standard

`varintDecode32` (`Verif.Model.Varint`) takes `data[4] << 28` as compilers such as gcc define it: the bits beyond the
32nd are lost.  By the C standard the shift is one of an `int`, and undefined if the result does not fit.
-/

namespace Verif

/-- `varint_decode32`, `/repo/libmy/varint.c:145-163`, with the shift of line 158 taken strictly: `data[4]` is an `int`
after promotion, so `data[4] << 28` is undefined from 8 on. -/
def varintDecode32Strict (data : Bytes) : Out (Nat × Nat) := do
  let r ← varintDecode32 data
  if r.1 > 4 then do
    let b ← byteAt data 4
    if b.toNat * 2 ^ 28 ≥ 2 ^ 31 then .fault .badShift else .ok r
  else .ok r

end Verif
