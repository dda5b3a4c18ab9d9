import Verif.Model.Base

/-!
# Base 64 (`/repo/libmy/b64_encode.c`, `/repo/libmy/b64_decode.c`)

`char` is signed and has 8 bits, as on x86.  The `switch` into the loop is a machine that reads one character at a time; at the end of
a block it stores its step and its partial byte, with which the next block goes on.
-/

namespace Verif.Base64

/-- A `char` as a number, as the comparisons at `/repo/libmy/b64_encode.c:19` and `/repo/libmy/b64_decode.c:15` take it. -/
def signed (b : UInt8) : Int := if b.toNat < 128 then b.toNat else (b.toNat : Int) - 256

/-- `encoding`, `/repo/libmy/b64_encode.c:18`. -/
def encoding : Bytes :=
  [65, 66, 67, 68, 69, 70, 71, 72, 73, 74, 75, 76, 77, 78, 79, 80, 81, 82, 83, 84, 85, 86, 87, 88, 89, 90,
   97, 98, 99, 100, 101, 102, 103, 104, 105, 106, 107, 108, 109, 110, 111, 112, 113, 114, 115, 116, 117, 118, 119, 120, 121, 122,
   48, 49, 50, 51, 52, 53, 54, 55, 56, 57, 43, 47]

/-- `base64_encode_value`, `/repo/libmy/b64_encode.c:16-21`. -/
def encodeValue (v : UInt8) : Out UInt8 :=
  if signed v > 63 then .ok 61
  else if signed v < 0 then .fault .oobRead
  else match encoding[v.toNat]? with
    | some c => .ok c
    | none => .fault .oobRead

/-- `base64_encodestep`, `/repo/libmy/b64_encode.h:11-14`. -/
inductive EStep where
  | A | B | C
deriving DecidableEq, Repr

/-- `base64_encodestate`, `/repo/libmy/b64_encode.h:16-20`. -/
structure EState where
  step : EStep
  result : UInt8
deriving DecidableEq, Repr

/-- `base64_init_encodestate`, `/repo/libmy/b64_encode.c:10-14`. -/
def initE : EState := ⟨.A, 0⟩

/-- `base64_encode_block`, `/repo/libmy/b64_encode.c:23-75`: the characters written and the state left; step A 36-46, step B 47-57,
step C 58-70. -/
def encodeBlock : Bytes → EState → Out (Bytes × EState)
  | [], s => .ok ([], s)
  | f :: p, ⟨.A, _⟩ => do
    let c ← encodeValue ((f &&& 0xfc) >>> 2)
    let r ← encodeBlock p ⟨.B, (f &&& 0x03) <<< 4⟩
    .ok (c :: r.1, r.2)
  | f :: p, ⟨.B, result⟩ => do
    let c ← encodeValue (result ||| ((f &&& 0xf0) >>> 4))
    let r ← encodeBlock p ⟨.C, (f &&& 0x0f) <<< 2⟩
    .ok (c :: r.1, r.2)
  | f :: p, ⟨.C, result⟩ => do
    let c ← encodeValue (result ||| ((f &&& 0xc0) >>> 6))
    let d ← encodeValue ((f &&& 0x3f) >>> 0)
    let r ← encodeBlock p ⟨.A, (f &&& 0x3f) >>> 0⟩
    .ok (c :: d :: r.1, r.2)

/-- `base64_encode_blockend`, `/repo/libmy/b64_encode.c:77-97`. -/
def encodeEnd : EState → Out Bytes
  | ⟨.A, _⟩ => .ok []
  | ⟨.B, result⟩ => do
    let c ← encodeValue result
    .ok [c, 61, 61]
  | ⟨.C, result⟩ => do
    let c ← encodeValue result
    .ok [c, 61]

/-- A program that encodes blocks one after the other and ends (`/repo/libmy/b64_encode.h:22-28`): what is written by each call. -/
def encodeAll : List Bytes → EState → Out (List Bytes)
  | [], s => do
    let e ← encodeEnd s
    .ok [e]
  | b :: bs, s => do
    let r ← encodeBlock b s
    let rs ← encodeAll bs r.2
    .ok (r.1 :: rs)

/-- `decoding`, `/repo/libmy/b64_decode.c:12`. -/
def decoding : List Int :=
  [62, -1, -1, -1, 63, 52, 53, 54, 55, 56, 57, 58, 59, 60, 61, -1, -1, -1, -2, -1, -1, -1, 0, 1, 2, 3, 4, 5, 6, 7, 8, 9, 10, 11, 12,
   13, 14, 15, 16, 17, 18, 19, 20, 21, 22, 23, 24, 25, -1, -1, -1, -1, -1, -1, 26, 27, 28, 29, 30, 31, 32, 33, 34, 35, 36, 37, 38,
   39, 40, 41, 42, 43, 44, 45, 46, 47, 48, 49, 50, 51]

/-- `base64_decode_value`, `/repo/libmy/b64_decode.c:10-17`.  `value_in -= 43` wraps around; the bound allows the index
`decoding_size`. -/
def decodeValue (value : UInt8) : Out Int :=
  let v := value - 43
  if signed v < 0 ∨ signed v > decoding.length then .ok (-1)
  else match decoding[v.toNat]? with
    | some x => .ok x
    | none => .fault .oobRead

/-- `base64_decodestep`, `/repo/libmy/b64_decode.h:11-14`. -/
inductive DStep where
  | a | b | c | d
deriving DecidableEq, Repr

/-- `base64_decodestate`, `/repo/libmy/b64_decode.h:16-20`. -/
structure DState where
  step : DStep
  plainchar : UInt8
deriving DecidableEq, Repr

/-- `base64_init_decodestate`, `/repo/libmy/b64_decode.c:19-23`. -/
def initD : DState := ⟨.a, 0⟩

/-- `*plainchar`, read (`/repo/libmy/b64_decode.c:42,54,67,80`). -/
def peek (buf : Bytes) (i : Nat) : Out UInt8 :=
  match buf[i]? with
  | some x => .ok x
  | none => .fault .oobRead

/-- `*plainchar = x` (`/repo/libmy/b64_decode.c:31,47,60,73`). -/
def poke (buf : Bytes) (i : Nat) (x : UInt8) : Out Bytes := if i < buf.length then .ok (buf.set i x) else .fault .oobWrite

/-- `*plainchar |= x` (`/repo/libmy/b64_decode.c:59,72,85`). -/
def orPoke (buf : Bytes) (i : Nat) (x : UInt8) : Out Bytes := do
  let y ← peek buf i
  poke buf i (y ||| x)

/-- The loop of `base64_decode_block`, `/repo/libmy/b64_decode.c:33-85`, at step a (36-47), b (48-60), c (61-73) or d (74-85), with
`plainchar` at the index `i` of the output buffer: the index reached, the buffer, the state. -/
def decodeLoop : Bytes → DStep → Bytes → Nat → Out (Nat × Bytes × DState)
  | [], s, buf, i => do
    let p ← peek buf i
    .ok (i, buf, ⟨s, p⟩)
  | x :: code, s, buf, i => do
    let v ← decodeValue x
    if v < 0 then decodeLoop code s buf i
    else
      let f := UInt8.ofNat v.toNat
      match s with
      | .a => do
        let buf ← poke buf i ((f &&& 0x3f) <<< 2)
        decodeLoop code .b buf i
      | .b => do
        let buf ← orPoke buf i ((f &&& 0x30) >>> 4)
        let buf ← poke buf (i + 1) ((f &&& 0x0f) <<< 4)
        decodeLoop code .c buf (i + 1)
      | .c => do
        let buf ← orPoke buf i ((f &&& 0x3c) >>> 2)
        let buf ← poke buf (i + 1) ((f &&& 0x03) <<< 6)
        decodeLoop code .d buf (i + 1)
      | .d => do
        let buf ← orPoke buf i (f &&& 0x3f)
        decodeLoop code .a buf (i + 1)

/-- `base64_decode_block`, `/repo/libmy/b64_decode.c:25-88`, into the buffer `buf`: the number of bytes, the buffer, the state. -/
def decodeBlock (code buf : Bytes) (s : DState) : Out (Nat × Bytes × DState) := do
  let buf ← poke buf 0 s.plainchar
  decodeLoop code s.step buf 0

/-- A program that decodes blocks one after the other, each into a buffer (`/repo/libmy/b64_decode.h:22-26`): the bytes each call
says it has written. -/
def decodeAll : List (Bytes × Bytes) → DState → Out (List Bytes)
  | [], _ => .ok []
  | (code, buf) :: bs, s => do
    let r ← decodeBlock code buf s
    let rs ← decodeAll bs r.2.2
    .ok (r.2.1.take r.1 :: rs)

end Verif.Base64
