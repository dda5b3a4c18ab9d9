import Verif.Model.Crc32cTable

/-!
# The checksum of the bundled library (`/repo/libmy/crc32c.c`, `/repo/libmy/crc32c-slicing.c`, `/repo/libmy/crc32c-sse42.c`)

The machine is little endian.  In the version with tables a read of a word at an address that is not divisible by four is a fault, as it
is on some machines; the version with instructions is for one that allows such reads.  A `uint32_t` is a number below 2^32; there are only exclusive ors, shifts to
the right and masks, which do not leave that range.
-/

namespace Verif.Crc32c

/-- A byte of the chunk (`*p`, `/repo/libmy/crc32c-slicing.c:1116,1161`). -/
def byteAt (buf : Bytes) (i : Nat) : Out Nat :=
  match buf[i]? with
  | some b => .ok b.toNat
  | none => .fault .oobRead

/-- A word of `n` bytes, the lowest first (`*(uint32_t *)p`, `/repo/libmy/crc32c-slicing.c:1122,1124`;
`*(uint64_t *)p` and others, `/repo/libmy/crc32c-sse42.c:129,139,142,147,150`). -/
def wordAt (buf : Bytes) : Nat → Nat → Out Nat
  | _, 0 => .ok 0
  | i, n + 1 => do
    let lo ← byteAt buf i
    let hi ← wordAt buf (i + 1) n
    .ok (lo ||| hi <<< 8)

/-- `*(uint32_t *)p`, `/repo/libmy/crc32c-slicing.c:1122,1124`, in a chunk at the address `addr`. -/
def alignedWord (addr : Nat) (buf : Bytes) (i : Nat) : Out Nat :=
  if (addr + i) % 4 = 0 then wordAt buf i 4 else .fault .abort

/-- `g_crc_slicing[k][i]`, `/repo/libmy/crc32c-slicing.c:1116,1137-1144,1161`. -/
def entry (k i : Nat) : Out Nat :=
  match slicing[k]? with
  | none => .fault .oobRead
  | some t =>
    match t[i]? with
    | none => .fault .oobRead
    | some v => .ok v

/-- The step for one byte, `/repo/libmy/crc32c-slicing.c:1116,1161`. -/
def byteStep (buf : Bytes) (i crc : Nat) : Out Nat := do
  let b ← byteAt buf i
  let t ← entry 0 ((crc ^^^ b) &&& 0xFF)
  .ok (t ^^^ (crc >>> 8))

/-- The bytes before the first address divisible by four, `/repo/libmy/crc32c-slicing.c:1109-1118`; `addr` is the address of the chunk.
Returns where it stopped, what is left, and the register. -/
def headLoop (addr : Nat) (buf : Bytes) : Nat → Nat → Nat → Out (Nat × Nat × Nat)
  | 0, i, crc => .ok (i, 0, crc)
  | len + 1, i, crc =>
    if (addr + i) &&& 3 ≠ 0 then do
      let crc ← byteStep buf i crc
      headLoop addr buf len (i + 1) crc
    else .ok (i, len + 1, crc)

/-- Eight bytes, `/repo/libmy/crc32c-slicing.c:1122-1145`. -/
def quadStep (addr : Nat) (buf : Bytes) (i crc : Nat) : Out Nat := do
  let w ← alignedWord addr buf i
  let crc := crc ^^^ w
  let next ← alignedWord addr buf (i + 4)
  let t7 ← entry 7 (crc &&& 0xFF)
  let t6 ← entry 6 ((crc >>> 8) &&& 0xFF)
  let t5 ← entry 5 ((crc >>> 16) &&& 0xFF)
  let t4 ← entry 4 (crc >>> 24)
  let t3 ← entry 3 (next &&& 0xFF)
  let t2 ← entry 2 ((next >>> 8) &&& 0xFF)
  let t1 ← entry 1 ((next >>> 16) &&& 0xFF)
  let t0 ← entry 0 (next >>> 24)
  .ok (t7 ^^^ t6 ^^^ t5 ^^^ t4 ^^^ t3 ^^^ t2 ^^^ t1 ^^^ t0)

/-- The loop over eight bytes at a time, `/repo/libmy/crc32c-slicing.c:1121-1146`. -/
def quadLoop (addr : Nat) (buf : Bytes) : Nat → Nat → Nat → Out Nat
  | 0, _, crc => .ok crc
  | n + 1, i, crc => do
    let crc ← quadStep addr buf i crc
    quadLoop addr buf n (i + 8) crc

/-- The bytes at the end, `/repo/libmy/crc32c-slicing.c:1160-1161`. -/
def tailLoop (buf : Bytes) : Nat → Nat → Nat → Out Nat
  | 0, _, crc => .ok crc
  | n + 1, i, crc => do
    let crc ← byteStep buf i crc
    tailLoop buf n (i + 1) crc

/-- `my_crc32c_slicing`, `/repo/libmy/crc32c-slicing.c:1099-1164`, of a chunk at the address `addr`. -/
def crcSlicing (addr : Nat) (buf : Bytes) (len : Nat) : Out Nat := do
  let (i, len, crc) ← headLoop addr buf len 0 0xffffffff
  let crc ← quadLoop addr buf (len / 8) i crc
  let crc ← tailLoop buf (len &&& 7) (i + 8 * (len / 8)) crc
  .ok (crc ^^^ 0xffffffff)

/-- One bit of the instruction `crc32`: the register is shifted, and the polynomial 0x11EDC6F41, in reverse and without its highest
term, added if a one falls out (`/repo/libmy/crc32c-sse42.c:98-120`; the instruction is that of Intel's manual). -/
def shift (c : Nat) : Nat := (c >>> 1) ^^^ (c % 2 * 0x82F63B78)

/-- `my_asm_crc32_u8` and those for 16, 32 and 64 bits, `/repo/libmy/crc32c-sse42.c:98-120`: the operand of `n` bits is added to the
register, which is shifted `n` times. -/
def instruction (n crc value : Nat) : Nat := n.repeat shift (crc ^^^ value)

/-- The loop over eight bytes at a time, `/repo/libmy/crc32c-sse42.c:128-131`. -/
def sseLoop (buf : Bytes) : Nat → Nat → Nat → Out Nat
  | 0, _, crc => .ok crc
  | n + 1, i, crc => do
    let w ← wordAt buf i 8
    sseLoop buf n (i + 8) (instruction 64 crc w)

/-- One instruction for the `n` bytes at `i`, `/repo/libmy/crc32c-sse42.c:137-153`. -/
def sseWord (buf : Bytes) (n i crc : Nat) : Out Nat := do
  let w ← wordAt buf i n
  .ok (instruction (8 * n) crc w)

/-- The `switch`, `/repo/libmy/crc32c-sse42.c:135-160`. -/
def sseTail (buf : Bytes) (len i crc : Nat) : Out Nat :=
  match len with
  | 7 => do
    let crc ← sseWord buf 1 i crc
    let crc ← sseWord buf 2 (i + 1) crc
    sseWord buf 4 (i + 3) crc
  | 6 => do
    let crc ← sseWord buf 2 i crc
    sseWord buf 4 (i + 2) crc
  | 4 => sseWord buf 4 i crc
  | 3 => do
    let crc ← sseWord buf 1 i crc
    sseWord buf 2 (i + 1) crc
  | 2 => sseWord buf 2 i crc
  | 5 => do
    let crc ← sseWord buf 4 i crc
    sseWord buf 1 (i + 4) crc
  | 1 => sseWord buf 1 i crc
  | _ => .ok crc

/-- `my_crc32c_sse42`, `/repo/libmy/crc32c-sse42.c:122-163`. -/
def crcSse42 (buf : Bytes) (len : Nat) : Out Nat := do
  let crc ← sseLoop buf (len / 8) 0 0xffffffff
  let crc ← sseTail buf (len &&& 7) (8 * (len / 8)) crc
  .ok (crc ^^^ 0xffffffff)

/-- `my_crc32c` on x86, `/repo/libmy/crc32c.c:41-60`: which function it points to depends on the processor; `my_crc32c_first` calls that
function too. -/
def crc32c (sse42 : Bool) (addr : Nat) (buf : Bytes) (len : Nat) : Out Nat :=
  if sse42 then crcSse42 buf len else crcSlicing addr buf len

end Verif.Crc32c
