import Verif.Model.Base
import Verif.Spec.Names

/-!
# Contract of the wdns name routines

`libwdns` is not part of `/repo`; these definitions state what the model assumes of
`wdns_len_uname` and `wdns_reverse_name` (called at `/repo/dnstable/entry.c:637-641,657-661,706,749-753`
and in `/repo/dnstable/query.c`).
-/

namespace Verif
open Spec

/-- Split the uncompressed wire name at the start of a buffer into labels and the remaining bytes;
`none` if a length octet exceeds 63 or the buffer ends before the root label
(`wdns_len_uname`, `/repo/dnstable/entry.c:637`). -/
def parseLabels (buf : Bytes) : Option (Name × Bytes) :=
  match buf with
  | [] => none
  | n :: rest =>
    if n.toNat = 0 then some ([], rest)
    else if n.toNat > 63 then none
    else if rest.length < n.toNat then none
    else (parseLabels (rest.drop n.toNat)).map fun r => (rest.take n.toNat :: r.1, r.2)
termination_by buf.length
decreasing_by simp; omega

/-- `wdns_len_uname`: length of the uncompressed name at the start of a buffer
(`/repo/dnstable/entry.c:637`). -/
def lenUname (buf : Bytes) : Out Nat :=
  match parseLabels buf with
  | some (_, rest) => .ok (buf.length - rest.length)
  | none => .fail

/-- `wdns_reverse_name`: the same labels in reverse order (`/repo/dnstable/entry.c:639`); fails unless
the buffer is exactly one name. -/
def reverseName (name : Bytes) : Out Bytes :=
  match parseLabels name with
  | some (ls, []) => .ok (wire ls.reverse)
  | _ => .fail

/-- `WDNS_MAXLEN_NAME`: size of the local buffers at `/repo/dnstable/entry.c:633,725`. -/
def maxLenName : Nat := 255

end Verif
