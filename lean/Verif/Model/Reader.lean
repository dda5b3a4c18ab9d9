import Verif.Model.Query

/-!
# Readers (`/repo/dnstable/reader.c`)
-/

namespace Verif

/-- `struct dnstable_reader`, `/repo/dnstable/reader.c:24-27`: `source` is NULL (`none`) for a reader
made by `dnstable_reader_init_setfile` (`/repo/dnstable/reader.c:47-59`), which has `fs` instead. -/
structure Reader where
  source : Option Src

/-- What an iterator over everything (`mtbl_source_iter`, `/repo/dnstable/reader.c:80`) or one kind
(`mtbl_source_get_prefix`, `/repo/dnstable/reader.c:143-150`) ranges over. -/
def kindView : Option UInt8 → View
  | none => .all
  | some t => .pfx [t]

/-- `dnstable_reader_iter` (`none`), `/repo/dnstable/reader.c:77-83`, and `reader_iter_prefix` with the
type bytes of `dnstable_reader_iter_rrset` and so on (`some t`), `/repo/dnstable/reader.c:85-126,143-150`.
The mtbl functions called dereference the source. -/
def readerOpen (r : Reader) (kind : Option UInt8) : Out (View × Table) :=
  match r.source with
  | none => .fault .nullDeref
  | some R => .ok (R.mach.start (kindView kind))

/-- The loop of `reader_iter_next`, `/repo/dnstable/reader.c:159-174`, with an iteration bound. -/
def readerLoop (R : Src) : Nat → View × Table → World → QRes × (View × Table) × World
  | 0, s, w => (.fault .diverge, s, w)
  | n + 1, s, w =>
    match R.mach.next s w with
    | (.item kv, s, w) =>
      match entryDecode kv.1 kv.2 with
      | .ok e => (.entry e, s, w)
      | .fail => readerLoop R n s w
      | .fault f => (.fault f, s, w)
    | (_, s, w) => (.failure, s, w)

/-- `reader_iter_next`, `/repo/dnstable/reader.c:154-175`; a call of `dnstable_iter_next`
(`/repo/dnstable/iter.c:61-67`) on the iterator. -/
def readerNext (R : Src) (s : View × Table) (w : World) : QRes × (View × Table) × World :=
  readerLoop R (R.mach.size s + 1) s w

end Verif
