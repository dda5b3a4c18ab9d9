import Verif.Model.OutputMem
import Verif.Model.Merge

/-!
# The merge function in memory (`/repo/dnstable/merge.c`)

`dnstable_merge_func` again, with the block it allocates for the merged value, the writes into that block and into the
buffers on the stack, and the length it stores for the caller.
-/

namespace Verif

/-- What is left open by the C standard: the bytes of new blocks, and whether `malloc(0)` is NULL
(`/repo/libmy/my_alloc.h:16-22`). -/
structure Malloc where
  fill : Nat → UInt8
  zeroNull : Bool

/-- `my_malloc`, `/repo/libmy/my_alloc.h:16-22`: a block of `n` bytes; NULL fails the assertion. -/
def myMallocMem (X : Malloc) (n : Nat) : Mem Nat :=
  if n = 0 ∧ X.zeroNull = true then mPure (.fault .abort) else mAlloc ((List.range n).map X.fill)

/-- `my_calloc`, `/repo/libmy/my_alloc.h:8-14`, of one element of `n` bytes. -/
def myCallocMem (X : Malloc) (n : Nat) : Mem Nat :=
  if n = 0 ∧ X.zeroNull = true then mPure (.fault .abort) else mAlloc (List.replicate n 0)

/-- Bytes written into a buffer (`memcpy`, `/repo/dnstable/merge.c:136-145`). -/
def bufWrite (c : Bytes) (off : Nat) (b : Bytes) : Out Bytes :=
  if off + b.length ≤ c.length then .ok (c.take off ++ b ++ c.drop (off + b.length)) else .fault .oobWrite

/-- Bytes written into a block (`memcpy`, `/repo/dnstable/merge.c:95,177`). -/
def mWrite (p off : Nat) (b : Bytes) : Mem Unit := do
  let c ← mLoad p
  let c ← mPure (bufWrite c off b)
  mStore p c

/-- `triplet_pack`, `/repo/dnstable/triplet.c:19-27`. -/
def tripletPackMem (p v1 v2 v3 : Nat) : Mem Nat := do
  mWrite p 0 (varintEncode64 v1)
  let n := (varintEncode64 v1).length
  mWrite p n (varintEncode64 v2)
  let n := n + (varintEncode64 v2).length
  mWrite p n (varintEncode64 v3)
  pure (n + (varintEncode64 v3).length)

/-- `pair_pack`, `/repo/dnstable/triplet.c:41-48`. -/
def pairPackMem (p v1 v2 : Nat) : Mem Nat := do
  mWrite p 0 (varintEncode64 v1)
  let n := (varintEncode64 v1).length
  mWrite p n (varintEncode64 v2)
  pure (n + (varintEncode64 v2).length)

/-- What the caller gets: `*merged_val`, and `*len_merged_val` if it has been set (`/repo/dnstable/merge.c:182-187`). -/
abbrev Merged := Option Nat × Option Nat

/-- RRSET/RDATA branch, `/repo/dnstable/merge.c:192-208`. -/
def mergeTripletsMem (X : Malloc) (v0 v1 : Bytes) : Mem Merged := do
  mPure (Out.assert (v0.length ≠ 0 ∧ v1.length ≠ 0))
  let (tf0, tl0, c0) ← mPure (tripletUnpack v0).orAbort
  let (tf1, tl1, c1) ← mPure (tripletUnpack v1).orAbort
  let tf := if tf0 < tf1 then tf0 else tf1
  let tl := if tl0 > tl1 then tl0 else tl1
  let p ← myMallocMem X 32
  let n ← tripletPackMem p tf tl ((c0 + c1) % 2 ^ 64)
  pure (some p, some n)

/-! ## Type sets -/

/-- The variables of the bitmap writer in `merge_rrtype_bitmaps`, `/repo/dnstable/merge.c:119-124`: `bitmap`,
`window_block`, `bitmap_len`, `result_data`, `result_index`. -/
structure BmBuffers where
  bitmap : Bytes
  window : Nat
  bitmapLen : Nat
  data : Bytes
  index : Nat

/-- The variables at the start, `/repo/dnstable/merge.c:119-124`; `result_data` is not initialised. -/
def BmBuffers.start (X : Malloc) : BmBuffers := ⟨List.replicate 32 0, 0, 0, (List.range 8192).map X.fill, 0⟩

/-- Write out the current window, `/repo/dnstable/merge.c:132-148,161-173`. -/
def bmFlushBuf (s : BmBuffers) : Out BmBuffers :=
  if s.bitmapLen > 0 then
    if s.index + 2 + s.bitmapLen < bmBound then do
      let data ← bufWrite s.data s.index [UInt8.ofNat s.window]
      let data ← bufWrite data (s.index + 1) [UInt8.ofNat s.bitmapLen]
      let bits ← if s.bitmapLen ≤ s.bitmap.length then .ok (s.bitmap.take s.bitmapLen) else .fault .oobRead
      let data ← bufWrite data (s.index + 2) bits
      .ok { s with data := data, index := s.index + 2 + s.bitmapLen, bitmapLen := 0 }
    else .fault .abort
  else .ok s

/-- One iteration of the writer loop, `/repo/dnstable/merge.c:126-159`. -/
def bmStepBuf (s : BmBuffers) (rrtype : Nat) : Out BmBuffers := do
  let cur := rrtype / 256
  let s ← if cur ≠ s.window then do
            let s ← bmFlushBuf s
            .ok { s with bitmap := List.replicate 32 0, window := cur }
          else .ok s
  let byte := rrtype % 256 / 8
  let bit := rrtype % 256 % 8
  let old ← byteAt s.bitmap byte
  let bitmap ← bufWrite s.bitmap byte [old ||| UInt8.ofNat (0x80 >>> bit)]
  .ok { s with bitmap := bitmap, bitmapLen := 1 + byte }

/-- The writer loop, `/repo/dnstable/merge.c:126-159`. -/
def bmLoopBuf : BmBuffers → List Nat → Out BmBuffers
  | s, [] => .ok s
  | s, t :: ts => do
    let s ← bmStepBuf s t
    bmLoopBuf s ts

/-- The merged set as a new block, `/repo/dnstable/merge.c:118-179`. -/
def bmWriteMem (X : Malloc) (ts : List Nat) : Mem Merged := do
  let s ← mPure (do
    let s ← bmLoopBuf (.start X) ts
    bmFlushBuf s)
  let p ← myMallocMem X s.index
  mWrite p 0 (s.data.take s.index)
  pure (some p, some s.index)

/-- `merge_rrtype_bitmaps`, `/repo/dnstable/merge.c:74-180`. -/
def mergeBitmapsMem (X : Malloc) (v0 v1 : Bytes) : Mem Merged :=
  if v0.length = 0 ∨ v1.length = 0 then do
    let p ← myMallocMem X 1
    mWrite p 0 [0]
    pure (some p, some 0)
  else if v0 = v1 then do
    let p ← myMallocMem X v0.length
    mWrite p 0 v0
    pure (some p, some v0.length)
  else match v0, v1 with
    | [a], [b] => bmWriteMem X (sortedMergeDedup maxRrtypes [a.toNat] [b.toNat])
    | [a, b], [c, d] => bmWriteMem X (sortedMergeDedup maxRrtypes [le16 a b] [le16 c d])
    | v0, v1 =>
      match unionUnpack v0 with
      | none => pure (none, none)
      | some ts1 =>
        match unionUnpack v1 with
        | none => pure (none, none)
        | some ts2 => bmWriteMem X (sortedMergeDedup maxRrtypes ts1 ts2)

/-! ## The other kinds -/

/-- TIME_RANGE branch, `/repo/dnstable/merge.c:212-228`. -/
def mergeTimeRangeMem (X : Malloc) (v0 v1 : Bytes) : Mem Merged :=
  if v0.length = 0 ∨ v1.length = 0 then do
    let p ← myMallocMem X 1
    pure (some p, some 0)
  else do
    let (tf0, tl0) ← mPure (pairUnpack v0).orAbort
    let (tf1, tl1) ← mPure (pairUnpack v1).orAbort
    let tf := if tf0 < tf1 then tf0 else tf1
    let tl := if tl0 > tl1 then tl0 else tl1
    let p ← myMallocMem X 32
    let n ← pairPackMem p tf tl
    pure (some p, some n)

/-- An empty value, `/repo/dnstable/merge.c:242-244,254-256,269-270`. -/
def mergeEmptyMem (X : Malloc) : Mem Merged := do
  let p ← myCallocMem X 1
  pure (some p, some 0)

/-- VERSION branch, `/repo/dnstable/merge.c:229-267`; `vt` is `key[1]`. -/
def mergeVersionMem (X : Malloc) (vt : UInt8) (v0 v1 : Bytes) : Mem Merged :=
  if v0.length = 0 ∨ v1.length = 0 then mergeEmptyMem X
  else if vt = etRrset ∨ vt = etRrsetNameFwd ∨ vt = etRdata ∨ vt = etRdataNameRev then do
    let (n0, x0) ← mPure (varintDecode32 v0)
    mPure (Out.assert (n0 = v0.length))
    let (n1, x1) ← mPure (varintDecode32 v1)
    mPure (Out.assert (n1 = v1.length))
    let v := if x0 < x1 then x0 else x1
    let p ← myCallocMem X (varintLength v)
    mWrite p 0 (varintEncode32 v)
    pure (some p, some (varintLength v))
  else mergeEmptyMem X

/-- `dnstable_merge_func`, `/repo/dnstable/merge.c:182-272`. -/
def mergeFuncMem (X : Malloc) (key v0 v1 : Bytes) : Mem Merged :=
  match key with
  | [] => mergeEmptyMem X
  | t :: ks =>
    if t = etRrset ∨ t = etRdata then mergeTripletsMem X v0 v1
    else if t = etRrsetNameFwd ∨ t = etRdataNameRev then mergeBitmapsMem X v0 v1
    else if ks = [] ∧ t = etTimeRange then mergeTimeRangeMem X v0 v1
    else match ks with
      | [vt] => if t = etVersion then mergeVersionMem X vt v0 v1 else mergeEmptyMem X
      | _ => mergeEmptyMem X

end Verif
