import Verif.Model.Base

/-!
# Printing and reading of numbers, hexadecimal and JSON strings

`/repo/dnstable/dnstable-json.h`, `/repo/libmy/my_format.c`, `/repo/libmy/hex_decode.h`,
`fmt_hex_str` of `/repo/dnstable/entry.c`.  Character strings are byte strings; a C string is given
without its terminating NUL.  A `ubuf` is the list of its bytes (`ubuf_append` always succeeds).
-/

namespace Verif

/-- `p[i] = b`: writing outside the object is a fault (as in `/repo/dnstable/dnstable-json.h:41`). -/
def store (buf : Bytes) (i : Nat) (b : UInt8) : Out Bytes :=
  if i < buf.length then .ok (buf.set i b) else .fault .oobWrite

/-- `'0' + num % 10`, `/repo/dnstable/dnstable-json.h:40-41`, `/repo/libmy/my_format.c:67`. -/
def digitChar (num : Nat) : UInt8 := UInt8.ofNat (48 + num % 10)

/-- The counting loop of `vnum_to_str`, `/repo/dnstable/dnstable-json.h:32-35`. -/
def countDigits (tmp : Nat) : Nat :=
  if tmp / 10 = 0 then 1 else countDigits (tmp / 10) + 1
termination_by tmp
decreasing_by omega

/-- The writing loop of `vnum_to_str`, `/repo/dnstable/dnstable-json.h:37-45`; `ndx` is `left - 1`. -/
def writeDigits : Nat → Nat → Bytes → Out Bytes
  | 0, _, ptr => .ok ptr
  | left + 1, num, ptr => do
    let ptr ← store ptr left (digitChar num)
    writeDigits left (num / 10) ptr

/-- `vnum_to_str`, `/repo/dnstable/dnstable-json.h:27-50`: the number of digits, and the buffer. -/
def vnumToStr (num : Nat) (ptr : Bytes) : Out (Nat × Bytes) := do
  let ndigits := countDigits num
  let ptr ← writeDigits ndigits num ptr
  let ptr ← store ptr ndigits 0
  .ok (ndigits, ptr)

/-- `append_json_value_int`, `/repo/dnstable/dnstable-json.h:137-144`.  The initial contents of
`numbuf` are arbitrary. -/
def appendJsonValueInt (numbuf : Bytes) (u : Bytes) (val : Nat) : Out Bytes := do
  let (nlen, numbuf) ← vnumToStr val numbuf
  .ok (u ++ numbuf.take nlen)

/-- The loop of `my_uint64_to_str`, `/repo/libmy/my_format.c:66-75`; `dst` is at position `off` of the
object `buf`, and `ptr` is relative to it.  Returns `ptr`, `ndigits` and the object. -/
def uint64Loop (off : Nat) : Nat → Nat → Nat → Bytes → Out (Nat × Nat × Bytes)
  | num, 0, nd, buf => do
    let buf ← store buf off (digitChar num)
    .ok (0, nd + 1, buf)
  | num, ptr + 1, nd, buf => do
    let buf ← store buf (off + (ptr + 1)) (digitChar num)
    if num / 10 = 0 then .ok (ptr + 1, nd + 1, buf)
    else uint64Loop off (num / 10) ptr (nd + 1) buf

/-- `my_uint64_to_str`, `/repo/libmy/my_format.c:58-81`: `*start - dst`, the number of digits, and the
object.  With `dst_size` 1 the pointer is moved before the start of the buffer. -/
def myUint64ToStr (num : Nat) (buf : Bytes) (off dstSize : Nat) : Out (Nat × Nat × Bytes) :=
  match dstSize with
  | 0 => .fault .oobWrite
  | 1 => .fault .oobWrite
  | n + 2 => do
    let buf ← store buf (off + (n + 1)) 0
    uint64Loop off num n 0 buf

/-! ## Hexadecimal -/

/-- `toupper` in the C locale, as used in `/repo/libmy/hex_decode.h:31`. -/
def toupper (c : UInt8) : UInt8 := if 97 ≤ c ∧ c ≤ 122 then c - 32 else c

/-- `hex_to_int`, `/repo/libmy/hex_decode.h:28-56`. -/
def hexToInt (hex : UInt8) : Option UInt8 :=
  let hex := toupper hex
  if 48 ≤ hex ∧ hex ≤ 57 then some (hex - 48)
  else if 65 ≤ hex ∧ hex ≤ 70 then some (hex - 55)
  else none

/-- The loop of `hex_decode`, `/repo/libmy/hex_decode.h:69-83`; with an odd number of characters it
would read beyond the terminating NUL (which it accepts as no digit). -/
def hexLoop : Bytes → Out Bytes
  | [] => .ok []
  | [_] => .fail
  | a :: b :: hex =>
    match hexToInt a, hexToInt b with
    | some v0, some v1 =>
      match hexLoop hex with
      | .ok raw => .ok ((v0 <<< 4 ||| v1) :: raw)
      | r => r
    | _, _ => .fail

/-- `hex_decode`, `/repo/libmy/hex_decode.h:58-88`. -/
def hexDecode (hex : Bytes) : Out Bytes :=
  if hex.length = 0 ∨ hex.length % 2 ≠ 0 then .fail else hexLoop hex

/-- A lower-case hexadecimal digit (`printf` conversion `%x`, `/repo/dnstable/entry.c:149`). -/
def hexChar (v : UInt8) : UInt8 := if v < 10 then 48 + v else 87 + v

/-- `snprintf(…, "%02x", b)`, `/repo/dnstable/entry.c:149`, `/repo/dnstable/dnstable-json.h:109`. -/
def hex2 (b : UInt8) : Bytes := [hexChar (b >>> 4), hexChar (b &&& 15)]

/-- `fmt_hex_str`, `/repo/dnstable/entry.c:143-151`. -/
def fmtHexStr (u : Bytes) : Bytes → Bytes
  | [] => u
  | c :: s => fmtHexStr (u ++ hex2 c) s

/-! ## JSON strings -/

/-- The letter of a two-character escape, 0 if there is none, `/repo/dnstable/dnstable-json.h:71-95`. -/
def escLetter (c : UInt8) : UInt8 :=
  if c = 8 then 98
  else if c = 12 then 102
  else if c = 10 then 110
  else if c = 13 then 114
  else if c = 9 then 116
  else if c = 34 then 34
  else if c = 92 then 92
  else 0

/-- The loop of `append_json_string_escaped`, `/repo/dnstable/dnstable-json.h:70-119`; `run` is the
text from `scan_last` to `scan`. -/
def escLoop (u run : Bytes) : Bytes → Bytes
  | [] => u ++ run
  | c :: rest =>
    let esc := escLetter c
    if esc > 0 ∨ c ≤ 0x1f then
      let u := if run.length > 0 then u ++ run else u
      let u := if esc > 0 then u ++ [92, esc] else u ++ [92, 117, 48, 48] ++ hex2 c
      escLoop u [] rest
    else escLoop u (run ++ [c]) rest

/-- `append_json_string_escaped`, `/repo/dnstable/dnstable-json.h:63-120`. -/
def appendJsonStringEscaped (u str : Bytes) : Bytes := escLoop u [] str

/-- `append_json_value_string`, `/repo/dnstable/dnstable-json.h:122-127`. -/
def appendJsonValueString (u val : Bytes) : Bytes := appendJsonStringEscaped (u ++ [34]) val ++ [34]

end Verif
