import Verif.Model.Base

/-!
# Base 32 with the hex alphabet (`/repo/libmy/b32_encode.c`, `/repo/libmy/b32_decode.c`)

Results are what is written to the destination, of which the functions return the length.
-/

namespace Verif.Base32

/-- `base32_alphabet`, `/repo/libmy/b32_encode.c:58-63`, `/repo/libmy/b32_decode.c:94-99`. -/
def alphabet : Bytes :=
  [48, 49, 50, 51, 52, 53, 54, 55, 56, 57, 65, 66, 67, 68, 69, 70, 71, 72, 73, 74, 75, 76, 77, 78, 79, 80, 81, 82, 83, 84, 85, 86]

/-- `base32_alphabet[(uint8_t) s[j]]`, `/repo/libmy/b32_encode.c:117`; what lies behind the alphabet is not modelled, indexes are below
32 by the masks. -/
def letter (v : UInt8) : UInt8 := alphabet.getD v.toNat 0

/-- The eight values of five bytes, `/repo/libmy/b32_encode.c:107-114`. -/
def split (x0 x1 x2 x3 x4 : UInt8) : Bytes :=
  [x0 >>> 3,
   ((x0 &&& 0x07) <<< 2) ||| (x1 >>> 6),
   (x1 >>> 1) &&& 0x1f,
   ((x1 &&& 0x01) <<< 4) ||| (x2 >>> 4),
   ((x2 &&& 0x0f) <<< 1) ||| (x3 >>> 7),
   (x3 >>> 2) &&& 0x1f,
   ((x3 &&& 0x03) <<< 3) ||| (x4 >>> 5),
   x4 &&& 0x1f]

/-- One round of the loop with `k` characters into a destination with room for `size` more, `/repo/libmy/b32_encode.c:104-118`. -/
def round (size k : Nat) (x0 x1 x2 x3 x4 : UInt8) : Bytes := (((split x0 x1 x2 x3 x4).take k).take size).map letter

/-- `base32_encode`, `/repo/libmy/b32_encode.c:74-127`, with room for `size` characters.  The loop runs at least once; it ends when the
destination is full (120-122) or the data is used up (124). -/
def encode : Nat → Bytes → Bytes
  | size, x0 :: x1 :: x2 :: x3 :: x4 :: r =>
    if size ≤ 8 then round size 8 x0 x1 x2 x3 x4
    else if r.isEmpty then round size 8 x0 x1 x2 x3 x4
    else round size 8 x0 x1 x2 x3 x4 ++ encode (size - 8) r
  | size, [x0, x1, x2, x3] => round size 7 x0 x1 x2 x3 0
  | size, [x0, x1, x2] => round size 5 x0 x1 x2 0 0
  | size, [x0, x1] => round size 3 x0 x1 0 0 0
  | size, [x0] => round size 2 x0 0 0 0 0
  | size, [] => round size 8 0 0 0 0 0

/-- `ascii_toupper`, `/repo/libmy/b32_decode.c:76-86`. -/
def upper (c : UInt8) : UInt8 := if c ≥ 97 ∧ c ≤ 122 then c - 32 else c

/-- `base32_map[c]`, `/repo/libmy/b32_decode.c:122-130`: the position of the character in the alphabet, or 255. -/
def code (c : UInt8) : UInt8 :=
  match alphabet.findIdx? (· == upper c) with
  | some i => UInt8.ofNat i
  | none => 255

/-- The five bytes of eight values, `/repo/libmy/b32_decode.c:161-177`. -/
def joinEight (v0 v1 v2 v3 v4 v5 v6 v7 : UInt8) : Bytes :=
  [((v0 <<< (3 : UInt8)) &&& (0xf8 : UInt8)) ||| ((v1 >>> (2 : UInt8)) &&& (0x07 : UInt8)),
   ((v1 &&& (0x03 : UInt8)) <<< (6 : UInt8)) ||| ((v2 &&& (0x1f : UInt8)) <<< (1 : UInt8)) ||| ((v3 >>> (4 : UInt8)) &&& (1 : UInt8)),
   ((v3 &&& (0x0f : UInt8)) <<< (4 : UInt8)) ||| ((v4 >>> (1 : UInt8)) &&& (0x0f : UInt8)),
   ((v4 &&& (1 : UInt8)) <<< (7 : UInt8)) ||| ((v5 &&& (0x1f : UInt8)) <<< (2 : UInt8)) ||| ((v6 >>> (3 : UInt8)) &&& (0x03 : UInt8)),
   ((v6 &&& (0x07 : UInt8)) <<< (5 : UInt8)) ||| (v7 &&& (0x1f : UInt8))]

/-- The same for the values read so far, the others zero, `/repo/libmy/b32_decode.c:158-177`. -/
def join (s : Bytes) : Bytes :=
  joinEight (s.getD 0 0) (s.getD 1 0) (s.getD 2 0) (s.getD 3 0) (s.getD 4 0) (s.getD 5 0) (s.getD 6 0) (s.getD 7 0)

/-- The loop of `base32_decode`, `/repo/libmy/b32_decode.c:136-187`, with room for `size` more bytes, the values `s` read so far, and
whether there has been a padding character.  An unknown character ends it with -1 (147). -/
def decodeLoop : Bytes → Nat → Bytes → Bool → Out Bytes
  | [], _, _, _ => .ok []
  | c :: data, size, s, pad => do
    let pad := pad || c == 61
    let v := if c = 61 then 0 else code c
    if c ≠ 61 ∧ v = 255 then .fail
    else
      let s := s ++ [v]
      if s.length = 8 ∨ pad = true ∨ data.isEmpty = true then
        if size ≤ 5 then .ok ((join s).take size)
        else do
          let r ← decodeLoop data (size - 5) [] pad
          .ok (join s ++ r)
      else if size = 0 then .ok []
      else decodeLoop data size s pad

/-- `base32_decode`, `/repo/libmy/b32_decode.c:113-190`, with room for `size` bytes. -/
def decode (size : Nat) (data : Bytes) : Out Bytes := decodeLoop data size [] false

end Verif.Base32
