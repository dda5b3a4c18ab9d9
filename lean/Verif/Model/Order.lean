import Verif.Model.Base

/-!
# Key comparison and the skip-ahead key
(`/repo/dnstable/dnstable-private.h:94-111`, `/repo/dnstable/query.c:621-633`)
-/

namespace Verif

/-- The byte loop of `memcmp` over two buffers (stops at the shorter one; callers give equal lengths).
Only the sign of `memcmp`'s result is used.  Called at `/repo/dnstable/dnstable-private.h:99`. -/
def cmpBytes : Bytes → Bytes → Ordering
  | a :: as, b :: bs =>
    if a.toNat < b.toNat then .lt else if a.toNat > b.toNat then .gt else cmpBytes as bs
  | _, _ => .eq

/-- `memcmp(a, b, n)`: both objects must have `n` bytes
(`/repo/dnstable/dnstable-private.h:99`). -/
def memcmpN (a b : Bytes) (n : Nat) : Out Ordering :=
  if n ≤ a.length ∧ n ≤ b.length then .ok (cmpBytes (a.take n) (b.take n)) else .fault .oobRead

/-- `bytes_compare` with explicit lengths, `/repo/dnstable/dnstable-private.h:94-111`. -/
def bytesCompareN (a : Bytes) (lenA : Nat) (b : Bytes) (lenB : Nat) : Out Ordering := do
  let len := if lenA > lenB then lenB else lenA
  let ret ← memcmpN a b len
  if ret = .eq then
    if lenA < lenB then .ok .lt
    else if lenA = lenB then .ok .eq
    else .ok .gt
  else .ok ret

/-- `bytes_compare` called with the real lengths of both buffers (as in `/repo/dnstable/query_mtbl.c:199,622`). -/
def bytesCompare (a b : Bytes) : Ordering :=
  let len := if a.length > b.length then b.length else a.length
  let ret := cmpBytes (a.take len) (b.take len)
  if ret = .eq then
    if a.length < b.length then .lt
    else if a.length = b.length then .eq
    else .gt
  else ret

/-- The loop of `increment_key`, `/repo/dnstable/query.c:625-632`, on the bytes from `pos` down to 0
(given last byte first). -/
def incRev : Bytes → Bool × Bytes
  | [] => (false, [])
  | b :: bs => if b + 1 ≠ 0 then (true, (b + 1) :: bs)
    else ((incRev bs).1, 0 :: (incRev bs).2)

/-- `increment_key`, `/repo/dnstable/query.c:621-633`: success flag and the changed key. -/
def incrementKey (key : Bytes) (pos : Nat) : Out (Bool × Bytes) :=
  if pos < key.length then
    let r := incRev (key.take (pos + 1)).reverse
    .ok (r.1, r.2.reverse ++ key.drop (pos + 1))
  else .fault .abort

end Verif
