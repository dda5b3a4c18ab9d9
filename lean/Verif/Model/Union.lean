import Verif.Model.Base

/-!
# RRtype unions (`/repo/dnstable/entry.c:1098-1249`, `/repo/dnstable/merge.c:27-180`)
-/

namespace Verif

/-- A 16-bit little-endian load, `le16toh(*(uint16_t*)p)`, `/repo/dnstable/entry.c:1109`. -/
def le16 (lo hi : UInt8) : Nat := lo.toNat + 256 * hi.toNat

/-- `MAX_RRTYPES_MAPPABLE`, `/repo/dnstable/dnstable-private.h:121` (capacity of
`rrtype_unpacked_set`). -/
def maxRrtypes : Nat := 65535

/-- Inner loop of `rrtype_union_unpack` over the bits of one byte, `/repo/dnstable/entry.c:1137-1148`:
`i` is the index of the byte in its block, so `lo = 8 * i + j`. -/
def unpackByte (window : UInt8) (i : Nat) (a : UInt8) : List Nat :=
  (List.range 8).filterMap fun j =>
    if a.toNat.testBit (7 - j) then some ((window.toNat <<< 8) ||| (8 * i + j)) else none

/-- Loop over the bytes of one block, `/repo/dnstable/entry.c:1135-1149`. -/
def unpackBlock (window : UInt8) : Nat → Bytes → List Nat
  | _, [] => []
  | i, a :: as => unpackByte window i a ++ unpackBlock window (i + 1) as

/-- The test that window numbers increase, `/repo/dnstable/entry.c:1123`; `prev` is
`prev_window_block` once a block has been seen. -/
def windowBad (prev : Option UInt8) (w : UInt8) : Bool :=
  match prev with
  | some p => decide (w.toNat ≤ p.toNat)
  | none => false

/-- Loop over the blocks of a bitmap, `/repo/dnstable/entry.c:1115-1155`; `prev` is
`prev_window_block` once a block has been seen.  `none` is the return value -1.
Simplification: the capacity check of line 1141 is done once at the end (`unionUnpack`); both return
-1 for the same inputs. -/
def unpackBlocks (prev : Option UInt8) (map : Bytes) : Option (List Nat) :=
  match map with
  | [] => some []
  | [_] => none
  | w :: n :: rest =>
    if windowBad prev w = true then none
    else if n.toNat < 1 ∨ rest.length < n.toNat then none
    else do
      let tl ← unpackBlocks (some w) (rest.drop n.toNat)
      some (unpackBlock w 0 (rest.take n.toNat) ++ tl)
termination_by map.length
decreasing_by simp; omega

/-- `rrtype_union_unpack`, `/repo/dnstable/entry.c:1098-1158`. -/
def unionUnpack (map : Bytes) : Option (List Nat) :=
  match map with
  | [] => some []
  | [a] => some [a.toNat]
  | [a, b] => some [le16 a b]
  | _ => do
    let ts ← unpackBlocks none map
    if ts.length ≤ maxRrtypes then some ts else none

/-- Block loop of `rrtype_union_check`, `/repo/dnstable/entry.c:1188-1215`.  `rest` keeps the bytes
after the current block, so the unchecked read of line 1205 sees the following block, or faults at
the end of the map. -/
def unionCheckBlocks (want : Nat) (byte : Nat) (bit : Nat) (map : Bytes) : Out Bool :=
  match map with
  | [] => .ok false
  | [_] => .ok true
  | w :: n :: rest =>
    if rest.length < n.toNat then .ok true
    else if w.toNat ≠ want then unionCheckBlocks want byte bit (rest.drop n.toNat)
    else if byte > n.toNat then .ok false
    else do
      let b ← byteAt rest byte
      .ok (b.toNat.testBit (7 - bit))
termination_by map.length
decreasing_by simp; omega

/-- `rrtype_union_check`, `/repo/dnstable/entry.c:1168-1216`; `rrtype` is a `uint16_t`. -/
def unionCheck (rrtype : Nat) (map : Bytes) : Out Bool :=
  match map with
  | [] => .ok true
  | [a] => .ok (rrtype == a.toNat)
  | [a, b] => .ok (rrtype == le16 a b)
  | _ => unionCheckBlocks (rrtype / 256) (rrtype % 256 / 8) (rrtype % 256 % 8) map

/-- The types indexed in the reverse rdata-name index, `/repo/dnstable/entry.c:1232-1235`
(NS, CNAME, SOA, PTR, MX, SRV, DNAME, SVCB, HTTPS). -/
def rdataNameRevTypes : List Nat := [2, 5, 6, 12, 15, 33, 39, 64, 65]

/-- `rrtype_test`, `/repo/dnstable/entry.c:1218-1249`.  `etype` is the `dnstable_entry_type`
(1 = RRSET_NAME_FWD, 3 = RDATA_NAME_REV). -/
def rrtypeTest (etype : Nat) (rrtype : Nat) (map : Bytes) : Out Bool :=
  if map.isEmpty ∧ etype = 1 then .ok true
  else if map.isEmpty ∧ etype = 3 then .ok (rdataNameRevTypes.contains rrtype)
  else unionCheck rrtype map

/-- `sorted_merge_dedup`, `/repo/dnstable/merge.c:27-57`, with `max` output slots left. -/
def sortedMergeDedup : Nat → List Nat → List Nat → List Nat
  | 0, _, _ => []
  | _ + 1, [], [] => []
  | m + 1, [], y :: ys => y :: sortedMergeDedup m [] ys
  | m + 1, x :: xs, [] => x :: sortedMergeDedup m xs []
  | m + 1, x :: xs, y :: ys =>
    if x > y then y :: sortedMergeDedup m (x :: xs) ys
    else if x < y then x :: sortedMergeDedup m xs (y :: ys)
    else y :: sortedMergeDedup m xs ys

/-- State of the bitmap writer in `merge_rrtype_bitmaps`, `/repo/dnstable/merge.c:119-124`. -/
structure BmState where
  bitmap : Bytes
  window : Nat
  bitmapLen : Nat
  result : Bytes
deriving DecidableEq, Repr

/-- Initial state, `/repo/dnstable/merge.c:119-124`. -/
def BmState.init : BmState := ⟨List.replicate 32 0, 0, 0, []⟩

/-- The bound in the two assertions, `/repo/dnstable/merge.c:133-134,162-163`:
`sizeof(result_data)/sizeof(&result_data[0])` is `8192 / 8` (the divisor is the size of a pointer). -/
def bmBound : Nat := 8192 / 8

/-- Write out the current window, `/repo/dnstable/merge.c:132-148,161-173` (skipped when
`bitmap_len` is 0; aborts when the assertion fails). -/
def bmFlush (s : BmState) : Out BmState :=
  if s.bitmapLen > 0 then
    if s.result.length + 2 + s.bitmapLen < bmBound then
      .ok { s with
        result := s.result ++ [UInt8.ofNat s.window, UInt8.ofNat s.bitmapLen]
                    ++ s.bitmap.take s.bitmapLen
        bitmapLen := 0 }
    else .fault .abort
  else .ok s

/-- One iteration of the writer loop, `/repo/dnstable/merge.c:126-159`. -/
def bmStep (s : BmState) (rrtype : Nat) : Out BmState := do
  let cur := rrtype / 256
  let s ← if cur ≠ s.window then do
            let s ← bmFlush s
            .ok { s with bitmap := List.replicate 32 0, window := cur }
          else .ok s
  let byte := rrtype % 256 / 8
  let bit := rrtype % 256 % 8
  .ok { s with
    bitmap := s.bitmap.modify byte (fun b => b ||| UInt8.ofNat (0x80 >>> bit))
    bitmapLen := 1 + byte }

/-- The writer loop, `/repo/dnstable/merge.c:126-159`. -/
def bmLoop : BmState → List Nat → Out BmState
  | s, [] => .ok s
  | s, t :: ts => do
    let s ← bmStep s t
    bmLoop s ts

/-- Building the merged union from the sorted types, `/repo/dnstable/merge.c:118-177`. -/
def bmWrite (ts : List Nat) : Out Bytes := do
  let s ← bmLoop .init ts
  let s ← bmFlush s
  .ok s.result

/-- `merge_rrtype_bitmaps`, `/repo/dnstable/merge.c:74-180`; `fail` is the NULL return. -/
def mergeBitmaps (v0 v1 : Bytes) : Out Bytes :=
  if v0.length = 0 ∨ v1.length = 0 then .ok []
  else if v0 = v1 then .ok v0
  else do
    let (ts1, ts2) ← match v0, v1 with
      | [a], [b] => Out.ok ([a.toNat], [b.toNat])
      | [a, b], [c, d] => Out.ok ([le16 a b], [le16 c d])
      | v0, v1 => do
        let ts1 ← Out.ofOption (unionUnpack v0)
        let ts2 ← Out.ofOption (unionUnpack v1)
        Out.ok (ts1, ts2)
    bmWrite (sortedMergeDedup maxRrtypes ts1 ts2)

end Verif
