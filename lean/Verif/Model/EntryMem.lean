import Verif.Model.Heap
import Verif.Model.Entry

/-!
# Entries in memory (`/repo/dnstable/entry.c:36-48,609-876`)

The decoding functions of `Verif.Model.Entry` again, with the blocks an entry owns.  A vector or `ubuf` is
two blocks, its struct and its array (`/repo/libmy/vector.h:29-38`); `realloc` keeps the number of a block.
-/

namespace Verif

/-- A computation that does not concern the heap and whose failure the caller sees.  (Glue of the model, no counterpart
in `/repo/`.) -/
def mTry {α : Type} (x : Out α) : Mem (Option α) := fun h =>
  match x with
  | .ok a => .ok (some a, h)
  | .fail => .ok (none, h)
  | .fault f => .fault f

/-- A vector: struct and array (`VECTOR_GENERATE`, `/repo/libmy/vector.h:22-28`). -/
structure VecMem where
  self : Nat
  arr : Nat
deriving DecidableEq, Repr

/-- `name##_init`, `/repo/libmy/vector.h:29-38`. -/
def vecInitMem : Mem VecMem := do
  let s ← mAlloc []
  let a ← mAlloc []
  pure ⟨s, a⟩

/-- Access to a vector, as in `name##_add` and `name##_append`, `/repo/libmy/vector.h:80-100`: the array is reallocated. -/
def vecTouchMem (v : VecMem) : Mem Unit := do
  mTouch v.self
  mTouch v.arr

/-- `name##_destroy`, `/repo/libmy/vector.h:60-68`. -/
def vecDestroyMem : Option VecMem → Mem Unit
  | none => pure ()
  | some v => do
    mTouch v.self
    mFree (some v.arr)
    mFree (some v.self)

/-- An entry and the blocks it points to (`struct dnstable_entry`, `/repo/dnstable/entry.c:36-48`): `rdatas` with its
elements, `name.data`, `bailiwick.data`, `rrtype_map`, `source_info`. -/
structure EntryMem where
  self : Nat
  vec : VecMem
  e : Entry := {}
  rdatas : List Nat := []
  name : Option Nat := none
  bailiwick : Option Nat := none
  rrtypeMap : Option VecMem := none
  sourceInfo : Option VecMem := none
deriving DecidableEq, Repr

/-- `decode_val_triplet`, `/repo/dnstable/entry.c:609-626`: the entry and success. -/
def decodeValTripletMem (m : EntryMem) (val : Bytes) : Mem (EntryMem × Bool) := do
  mTouch m.self
  match ← mTry (decodeValTriplet m.e val) with
  | none => pure (m, false)
  | some e => pure ({ m with e := e }, true)

/-- The rdata loop of `decode_rrset`, `/repo/dnstable/entry.c:665-683`. -/
def decodeRdatasMem (m : EntryMem) (p : Bytes) : Mem (EntryMem × Bool) :=
  if _hp : p = [] then pure (m, true)
  else do
    match ← mTry (varintDecode32 p) with
    | none => pure (m, false)
    | some (n, len) =>
      if len > 65535 then pure (m, false)
      else if n + len > p.length then pure (m, false)
      else if _hz : n + len = 0 then mPure (.fault .diverge)
      else do
        let d := (p.drop n).take len
        let b ← mAlloc d
        vecTouchMem m.vec
        decodeRdatasMem { m with rdatas := m.rdatas ++ [b], e := { m.e with rdatas := m.e.rdatas ++ [d] } }
          (p.drop (n + len))
termination_by p.length
decreasing_by
  have := List.length_pos_iff.mpr _hp
  simp; omega

/-- `decode_rrset`, `/repo/dnstable/entry.c:628-686`. -/
def decodeRrsetMem (m : EntryMem) (buf : Bytes) : Mem (EntryMem × Bool) := do
  match ← mTry (decodeName buf) with
  | none => pure (m, false)
  | some (name, ln) =>
    mTouch m.self
    let b ← mAlloc name
    let m := { m with name := some b, e := { m.e with name := name } }
    match ← mTry (varintDecode32 (buf.drop ln)) with
    | none => pure (m, false)
    | some (nt, rrtype) =>
      let m := { m with e := { m.e with rrtype := rrtype } }
      let p := (buf.drop ln).drop nt
      match ← mTry (decodeName p) with
      | none => pure (m, false)
      | some (bw, lb) =>
        let b ← mAlloc bw
        let m := { m with bailiwick := some b, e := { m.e with bailiwick := bw } }
        decodeRdatasMem m (p.drop lb)

/-- The type set of a name entry, `/repo/dnstable/entry.c:694-697,709-712`. -/
def decodeMapMem (m : EntryMem) (val : Bytes) : Mem EntryMem := do
  if val.length > 0 then do
    let v ← vecInitMem
    vecTouchMem v
    pure { m with rrtypeMap := some v, e := { m.e with rrtypeMap := some val } }
  else pure m

/-- `decode_rrset_name_fwd`, `/repo/dnstable/entry.c:688-699`. -/
def decodeRrsetNameFwdMem (m : EntryMem) (buf val : Bytes) : Mem (EntryMem × Bool) := do
  mTouch m.self
  let b ← mAlloc buf
  let m := { m with name := some b, e := { m.e with name := buf } }
  let m ← decodeMapMem m val
  pure (m, true)

/-- `decode_rdata_name_rev`, `/repo/dnstable/entry.c:701-715`; the name is reversed into the block. -/
def decodeRdataNameRevMem (m : EntryMem) (buf val : Bytes) : Mem (EntryMem × Bool) := do
  mTouch m.self
  match ← mTry (reverseName buf) with
  | none => do
    let b ← mAlloc buf
    pure ({ m with name := some b, e := { m.e with name := buf } }, false)
  | some rev => do
    let b ← mAlloc rev
    let m := { m with name := some b, e := { m.e with name := rev } }
    let m ← decodeMapMem m val
    pure (m, true)

/-- `decode_rdata`, `/repo/dnstable/entry.c:717-776`. -/
def decodeRdataMem (m : EntryMem) (buf : Bytes) : Mem (EntryMem × Bool) := do
  mTouch m.self
  if buf.length < 2 then pure (m, false)
  else
    let endp := buf.length - 2
    match ← mTry (byteAt buf endp) with
    | none => pure (m, false)
    | some lo =>
      match ← mTry (byteAt buf (endp + 1)) with
      | none => pure (m, false)
      | some hi =>
        let lenData := lo.toNat + 256 * hi.toNat
        if lenData > endp then pure (m, false)
        else
          match ← mTry (varintDecode32 (buf.drop lenData)) with
          | none => pure (m, false)
          | some (nt, rrtype) =>
            let m := { m with e := { m.e with rrtype := rrtype } }
            if lenData + nt > endp then pure (m, false)
            else
              match ← mTry (decodeName ((buf.take endp).drop (lenData + nt))) with
              | none => pure (m, false)
              | some (name, ln) =>
                let b ← mAlloc name
                let m := { m with name := some b, e := { m.e with name := name } }
                let slice := (buf.take endp).drop (lenData + nt + ln)
                let all := slice ++ buf.take lenData
                let b ← mAlloc (all.take (all.length % 65536))
                vecTouchMem m.vec
                pure ({ m with rdatas := m.rdatas ++ [b],
                               e := { m.e with rdatas := m.e.rdatas ++ [all.take (all.length % 65536)] } }, true)

/-- `decode_time_range`, `/repo/dnstable/entry.c:778-782`. -/
def decodeTimeRangeMem (m : EntryMem) (val : Bytes) : Mem (EntryMem × Bool) := do
  mTouch m.self
  match ← mTry (decodeTimeRange m.e val) with
  | none => pure (m, false)
  | some e => pure ({ m with e := e }, true)

/-- `decode_source_info`, `/repo/dnstable/entry.c:784-793`. -/
def decodeSourceInfoMem (m : EntryMem) (buf : Bytes) : Mem (EntryMem × Bool) := do
  mTouch m.self
  let v ← vecInitMem
  vecTouchMem v
  pure ({ m with sourceInfo := some v, e := { m.e with sourceInfo := some buf } }, true)

/-- `decode_version`, `/repo/dnstable/entry.c:795-811`. -/
def decodeVersionMem (m : EntryMem) (buf val : Bytes) : Mem (EntryMem × Bool) := do
  mTouch m.self
  match ← mTry (decodeVersion m.e buf val) with
  | none => pure (m, false)
  | some e => pure ({ m with e := e }, true)

/-- `my_free` on each element of the vector, `/repo/dnstable/entry.c:866-869`. -/
def freeAllMem : List Nat → Mem Unit
  | [] => pure ()
  | p :: ps => do
    mFree (some p)
    freeAllMem ps

/-- `dnstable_entry_destroy`, `/repo/dnstable/entry.c:862-876`; `none` is a NULL pointer, as which the caller's pointer
is left. -/
def entryDestroyMem (m : Option EntryMem) : Mem (Option EntryMem) :=
  match m with
  | none => pure none
  | some m => do
    mTouch m.self
    vecTouchMem m.vec
    freeAllMem m.rdatas
    vecDestroyMem m.rrtypeMap
    vecDestroyMem m.sourceInfo
    vecDestroyMem (some m.vec)
    mFree m.name
    mFree m.bailiwick
    mFree (some m.self)
    pure none

/-- The `switch` of `dnstable_entry_decode`, `/repo/dnstable/entry.c:823-854`. -/
def decodeKindMem (m : EntryMem) (t : Nat) (buf val : Bytes) : Mem (EntryMem × Bool) :=
  let start := fun (ty : Nat) => { m with e := { m.e with eType := ty } }
  if t = tRRSET then do
    let (m, ok) ← decodeRrsetMem (start tRRSET) buf
    if ok then decodeValTripletMem m val else pure (m, false)
  else if t = tRRSET_NAME_FWD then decodeRrsetNameFwdMem (start tRRSET_NAME_FWD) buf val
  else if t = tRDATA then do
    let (m, ok) ← decodeRdataMem (start tRDATA) buf
    if ok then decodeValTripletMem m val else pure (m, false)
  else if t = tRDATA_NAME_REV then decodeRdataNameRevMem (start tRDATA_NAME_REV) buf val
  else if t = tTIME_RANGE then decodeTimeRangeMem (start tTIME_RANGE) val
  else if t = tSOURCE_INFO then decodeSourceInfoMem (start tSOURCE_INFO) buf
  else if t = tVERSION then decodeVersionMem (start tVERSION) buf val
  else pure (m, true)

/-- `dnstable_entry_decode`, `/repo/dnstable/entry.c:813-860`; `none` is NULL. -/
def entryDecodeMem (key val : Bytes) : Mem (Option EntryMem) :=
  match key with
  | [] => pure none
  | t :: buf => do
    let p ← mAlloc []
    let v ← vecInitMem
    let (m, ok) ← decodeKindMem { self := p, vec := v } t.toNat buf val
    if ok then pure (some m) else entryDestroyMem (some m)

end Verif
