import Verif.Model.Format

/-!
# RFC 3339 time stamps (`/repo/dnstable/entry.c:84-136`)

`gmtime_r` belongs to libc and is a parameter; its result is a `struct tm`, or `NULL`.
-/

namespace Verif

/-- `struct tm` as far as used in `/repo/dnstable/entry.c:85-99`. -/
structure Tm where
  year : Int
  mon : Int
  mday : Int
  hour : Int
  min : Int
  sec : Int
deriving DecidableEq, Repr

/-- Conversion of an `int` argument to the `uint64_t` parameter of `my_uint64_to_str`,
`/repo/dnstable/entry.c:87-97`. -/
def toU64 (x : Int) : Nat := (x % 18446744073709551616).toNat

/-- One of the six fields of `fmt_rfc3339`: print the number, then overwrite the terminating NUL with a
separator, `/repo/dnstable/entry.c:87-88` and following pairs of lines. -/
def rfcField (num : Int) (off size : Nat) (sep : UInt8) (dst : Bytes) : Out Bytes := do
  let (_, _, dst) ← myUint64ToStr (toU64 num) dst off size
  store dst (off + size - 1) sep

/-- `fmt_rfc3339`, `/repo/dnstable/entry.c:84-99`. -/
def fmtRfc3339 (src : Tm) (dst : Bytes) : Out Bytes := do
  let dst ← rfcField (1900 + src.year) 0 5 45 dst
  let dst ← rfcField (1 + src.mon) 5 3 45 dst
  let dst ← rfcField src.mday 8 3 84 dst
  let dst ← rfcField src.hour 11 3 58 dst
  let dst ← rfcField src.min 14 3 58 dst
  rfcField src.sec 17 3 90 dst

/-- `"0000-00-00T00:00:00Z"` with its NUL, `/repo/dnstable/entry.c:106`. -/
def rfcTemplate : Bytes := [48, 48, 48, 48, 45, 48, 48, 45, 48, 48, 84, 48, 48, 58, 48, 48, 58, 48, 48, 90, 0]

/-- Conversion of the `uint64_t` time to `time_t` (64 bits, two's complement), `/repo/dnstable/entry.c:105`. -/
def toTimeT (v : Nat) : Int := if v < 9223372036854775808 then v else (v : Int) - 18446744073709551616

/-- The text of `fmt_rfc3339_time` and `fmt_rfc3339_time_json`, `/repo/dnstable/entry.c:101-118,120-136`:
all of `ts` but its last byte. -/
def rfc3339Text (gmtime : Int → Option Tm) (v : Nat) : Out Bytes :=
  match gmtime (toTimeT v) with
  | none => .fault .abort
  | some r => do
    let ts ← fmtRfc3339 r rfcTemplate
    .ok (ts.take (ts.length - 1))

/-- `fmt_rfc3339_time`, `/repo/dnstable/entry.c:101-118`. -/
def fmtRfc3339Time (gmtime : Int → Option Tm) (u : Bytes) (v : Nat) : Out Bytes := do
  let ts ← rfc3339Text gmtime v
  .ok (u ++ ts)

/-- `fmt_rfc3339_time_json`, `/repo/dnstable/entry.c:120-136`. -/
def fmtRfc3339TimeJson (gmtime : Int → Option Tm) (u : Bytes) (v : Nat) : Out Bytes := do
  let ts ← rfc3339Text gmtime v
  .ok (appendJsonValueString u ts)

end Verif
