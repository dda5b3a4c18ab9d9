import Verif.Model.Util

/-!
# Bytes as hexadecimal text (`/repo/libmy/my_format.c`)

`size_t` has 64 bits.  The destination is a list of as many bytes as the memory behind `dst` has.
-/

namespace Verif.HexStr

/-- The digits, `/repo/libmy/my_format.c:25-27`. -/
def table (upper : Bool) : Bytes := if upper then lit "0123456789ABCDEF" else lit "0123456789abcdef"

/-- `table[...]`, `/repo/libmy/my_format.c:29-30`. -/
def digit (upper : Bool) (i : UInt8) : Out UInt8 :=
  match (table upper)[i.toNat]? with
  | some c => .ok c
  | none => .fault .oobRead

/-- A store to `dst`, `/repo/libmy/my_format.c:29-30,46`. -/
def store (dst : Bytes) (i : Nat) (c : UInt8) : Out Bytes := if i < dst.length then .ok (dst.set i c) else .fault .oobWrite

/-- `_my_byte_to_hex_str`, `/repo/libmy/my_format.c:22-33`, writing from `dst[i]` on. -/
def byteToHex (byte : UInt8) (upper : Bool) (dst : Bytes) (i : Nat) : Out Bytes := do
  let hi ← digit upper ((byte >>> 4) &&& 0xf)
  let dst ← store dst i hi
  let lo ← digit upper (byte &&& 0xf)
  store dst (i + 1) lo

/-- The loop, `/repo/libmy/my_format.c:43-44`: the first argument is the number of rounds left. -/
def hexLoop (upper : Bool) (src : Bytes) : Nat → Nat → Bytes → Out Bytes
  | 0, _, dst => .ok dst
  | k + 1, n, dst =>
    match src[n]? with
    | none => .fault .oobRead
    | some b => do
      let dst ← byteToHex b upper dst (n * 2)
      hexLoop upper src k (n + 1) dst

/-- `my_bytes_to_hex_str`, `/repo/libmy/my_format.c:35-49`: what the destination holds then, and the value returned. -/
def bytesToHex (src : Bytes) (len : Nat) (upper : Bool) (dst : Bytes) (dstSize : Nat) : Out (Bytes × Nat) := do
  let room := (dstSize + (2 ^ 64 - 1)) % 2 ^ 64
  let len := if len * 2 % 2 ^ 64 > room then room / 2 else len
  let dst ← hexLoop upper src len 0 dst
  let dst ← store dst (len * 2) 0
  .ok (dst, len * 2 % 2 ^ 64)

/-- `my_uint16_to_hex_str`, `/repo/libmy/my_format.c:51-57`: `htons` puts the high byte first. -/
def uint16ToHex (num : Nat) (upper : Bool) (dst : Bytes) (dstSize : Nat) : Out (Bytes × Nat) :=
  bytesToHex [UInt8.ofNat (num / 256), UInt8.ofNat num] 2 upper dst dstSize

end Verif.HexStr
