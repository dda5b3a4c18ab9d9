import Verif.Model.Base

/-!
# Reading a number of bytes from a descriptor (`/repo/libmy/read_bytes.h`)
-/

namespace Verif.ReadBytes

/-- What the system does with a call of `read` (`/repo/libmy/read_bytes.h:15-18`): a signal interrupts it; it fails otherwise; it
delivers up to `n + 1` bytes, as many as are wanted and are there, none at the end of the file. -/
inductive Answer where
  | interrupted
  | failed
  | upTo (n : Nat)
  deriving DecidableEq

/-- The bytes that `read` stores at `off` (`/repo/libmy/read_bytes.h:15`). -/
def store (buf : Bytes) (off : Nat) (bs : Bytes) : Out Bytes :=
  if off + bs.length ≤ buf.length then .ok (buf.take off ++ bs ++ buf.drop (off + bs.length)) else .fault .oobWrite

/-- The loop of `read_bytes`, `/repo/libmy/read_bytes.h:12-23`; `input` is what can still be read, `off` how far `buf` has moved.
Returns the result, the buffer and what can still be read.  Without an answer the call does not return. -/
def loop : List Answer → Bytes → Bytes → Nat → Nat → Out (Bool × Bytes × Bytes)
  | _, input, buf, _, 0 => .ok (true, buf, input)
  | [], _, _, _, _ + 1 => .fault .diverge
  | .interrupted :: as, input, buf, off, needed + 1 => loop as input buf off (needed + 1)
  | .failed :: _, input, buf, _, _ + 1 => .ok (false, buf, input)
  | .upTo n :: as, input, buf, off, needed + 1 =>
    let bs := input.take (min (n + 1) (needed + 1))
    if bs.length = 0 then .ok (false, buf, input)
    else do
      let buf ← store buf off bs
      loop as (input.drop bs.length) buf (off + bs.length) (needed + 1 - bs.length)

/-- `read_bytes`, `/repo/libmy/read_bytes.h:9-24`. -/
def readBytes (as : List Answer) (input buf : Bytes) (needed : Nat) : Out (Bool × Bytes × Bytes) := loop as input buf 0 needed

end Verif.ReadBytes
