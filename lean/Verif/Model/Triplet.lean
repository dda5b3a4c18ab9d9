import Verif.Model.Varint

/-!
# Packed values (`/repo/dnstable/triplet.c`)
-/

namespace Verif

/-- `triplet_pack`, `/repo/dnstable/triplet.c:19-27`: the bytes written (their number is the return
value). -/
def tripletPack (v1 v2 v3 : Nat) : Bytes :=
  varintEncode64 v1 ++ varintEncode64 v2 ++ varintEncode64 v3

/-- `triplet_unpack`, `/repo/dnstable/triplet.c:29-39`.  `buf` is the whole value object
(`len_buf = buf.length`); the decoders do not check bounds, so a read past the end is a fault. -/
def tripletUnpack (buf : Bytes) : Out (Nat × Nat × Nat) := do
  let (n1, v1) ← varintDecode64 buf
  let (n2, v2) ← varintDecode64 (buf.drop n1)
  let (n3, v3) ← varintDecode64 (buf.drop (n1 + n2))
  if n1 + n2 + n3 = buf.length then .ok (v1, v2, v3) else .fail

/-- `pair_pack`, `/repo/dnstable/triplet.c:41-48`. -/
def pairPack (v1 v2 : Nat) : Bytes :=
  varintEncode64 v1 ++ varintEncode64 v2

/-- `pair_unpack`, `/repo/dnstable/triplet.c:50-59`. -/
def pairUnpack (buf : Bytes) : Out (Nat × Nat) := do
  let (n1, v1) ← varintDecode64 buf
  let (n2, v2) ← varintDecode64 (buf.drop n1)
  if n1 + n2 = buf.length then .ok (v1, v2) else .fail

end Verif
