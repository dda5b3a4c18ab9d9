import Verif.Model.Base

/-!
# Variable-length integers (`/repo/libmy/varint.c`)

`mtbl_varint_*` of the mtbl library is the same code; the model is used for both.
`data` is the object from the pointer to its end; a read past its end is the fault `oobRead`.
Simplification: `data[4] << 28` (line 157) is a signed shift in C; it is taken modulo `2^32`, which
is what GCC and Clang document.
-/

namespace Verif

/-- `varint_length`, `/repo/libmy/varint.c:77-86`. -/
def varintLength (v : Nat) : Nat :=
  if v < 128 then 1 else 1 + varintLength (v / 128)
termination_by v
decreasing_by omega

/-- The loop of `varint_length_packed`, `/repo/libmy/varint.c:88-101`, with `n` bytes of budget left:
the number of bytes up to and including the first byte without continuation bit, or `none` when the
budget is exhausted first. -/
def lengthPackedLoop : Nat → Bytes → Out (Option Nat)
  | 0, _ => .ok none
  | _ + 1, [] => .fault .oobRead
  | n + 1, b :: bs =>
    if b.toNat < 128 then .ok (some 1)
    else do
      match ← lengthPackedLoop n bs with
      | some k => .ok (some (k + 1))
      | none => .ok none

/-- `varint_length_packed(data, n)`, `/repo/libmy/varint.c:88-101`: 0 when no terminating byte is
found among the first `n` bytes. -/
def varintLengthPacked (data : Bytes) (n : Nat) : Out Nat := do
  match ← lengthPackedLoop n data with
  | some k => .ok k
  | none => .ok 0

/-- `varint_encode32`, `/repo/libmy/varint.c:103-130`.  `v` is a `uint32_t`; storing into a
`uint8_t` keeps the low 8 bits. -/
def varintEncode32 (v : Nat) : Bytes :=
  if v < 2 ^ 7 then [UInt8.ofNat v]
  else if v < 2 ^ 14 then [UInt8.ofNat (v ||| 128), UInt8.ofNat (v >>> 7)]
  else if v < 2 ^ 21 then
    [UInt8.ofNat (v ||| 128), UInt8.ofNat ((v >>> 7) ||| 128), UInt8.ofNat (v >>> 14)]
  else if v < 2 ^ 28 then
    [UInt8.ofNat (v ||| 128), UInt8.ofNat ((v >>> 7) ||| 128), UInt8.ofNat ((v >>> 14) ||| 128),
     UInt8.ofNat (v >>> 21)]
  else
    [UInt8.ofNat (v ||| 128), UInt8.ofNat ((v >>> 7) ||| 128), UInt8.ofNat ((v >>> 14) ||| 128),
     UInt8.ofNat ((v >>> 21) ||| 128), UInt8.ofNat (v >>> 28)]

/-- `varint_encode64`, `/repo/libmy/varint.c:132-143`. -/
def varintEncode64 (v : Nat) : Bytes :=
  if v < 128 then [UInt8.ofNat v]
  else UInt8.ofNat ((v &&& 127) ||| 128) :: varintEncode64 (v >>> 7)
termination_by v
decreasing_by
  rw [Nat.shiftRight_eq_div_pow]; omega

/-- `data[i] & 0x7f` with the bounds check of the model; used by the decoders,
`/repo/libmy/varint.c:149-157,178-184`. -/
def low7 (data : Bytes) (i : Nat) : Out Nat := do
  let b ← byteAt data i
  .ok (b.toNat &&& 0x7f)

/-- `varint_decode32`, `/repo/libmy/varint.c:145-163`: returns (bytes consumed, value). -/
def varintDecode32 (data : Bytes) : Out (Nat × Nat) := do
  let len ← varintLengthPacked data 5
  let v0 ← low7 data 0
  if len > 1 then
    let v1 ← low7 data 1
    let val := v0 ||| (v1 <<< 7)
    if len > 2 then
      let v2 ← low7 data 2
      let val := val ||| (v2 <<< 14)
      if len > 3 then
        let v3 ← low7 data 3
        let val := val ||| (v3 <<< 21)
        if len > 4 then
          let b4 ← byteAt data 4
          .ok (len, (val ||| (b4.toNat <<< 28)) % 2 ^ 32)
        else .ok (len, val)
      else .ok (len, val)
    else .ok (len, val)
  else .ok (len, v0)

/-- The `for` loop of `varint_decode64`, `/repo/libmy/varint.c:183-186`: `k` iterations left, at
index `i` with shift `7 * i`. -/
def decode64Loop (data : Bytes) : Nat → Nat → Nat → Out Nat
  | 0, _, val => .ok val
  | k + 1, i, val => do
    let b ← low7 data i
    decode64Loop data k (i + 1) ((val ||| (b <<< (7 * i))) % 2 ^ 64)

/-- `varint_decode64`, `/repo/libmy/varint.c:165-189`: returns (bytes consumed, value). -/
def varintDecode64 (data : Bytes) : Out (Nat × Nat) := do
  let len ← varintLengthPacked data 10
  if len < 5 then varintDecode32 data
  else
    let v0 ← low7 data 0
    let v1 ← low7 data 1
    let v2 ← low7 data 2
    let v3 ← low7 data 3
    let val ← decode64Loop data (len - 4) 4 (v0 ||| (v1 <<< 7) ||| (v2 <<< 14) ||| (v3 <<< 21))
    .ok (len, val)

end Verif
