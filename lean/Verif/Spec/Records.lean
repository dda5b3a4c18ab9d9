import Verif.Spec.Names
import Verif.Spec.Varint
import Verif.Spec.Union

/-!
# Specification: what a table contains

Records and their documented key/value layout (`/repo/man/dnstable-encoding.5.txt:77-230`),
written independently of the decoder.
-/

namespace Verif.Spec

/-- Times and count of a record. -/
structure Obs where
  first : Nat
  last : Nat
  count : Nat
deriving DecidableEq, Repr

/-- The three numbers are 64-bit. -/
def Obs.legal (o : Obs) : Prop := o.first < 2 ^ 64 ∧ o.last < 2 ^ 64 ∧ o.count < 2 ^ 64

/-- Value layout of RRset and rdata entries. -/
def Obs.value (o : Obs) : Bytes := leb o.first ++ leb o.last ++ leb o.count

/-- The documented reading of odd observations: a count of zero means one, a last-seen time of
zero means the first-seen time. -/
def Obs.fixed (o : Obs) : Obs :=
  ⟨o.first, if o.last = 0 then o.first else o.last, if o.count = 0 then 1 else o.count⟩

/-- An RRset. -/
structure RRset where
  owner : Name
  rrtype : Nat
  bailiwick : Name
  rdatas : List Bytes
deriving DecidableEq, Repr

/-- Each rdata preceded by its length. -/
def rdataArray (ds : List Bytes) : Bytes := ds.flatMap fun d => leb d.length ++ d

/-- Key layout of `ENTRY_TYPE_RRSET`. -/
def RRset.key (r : RRset) : Bytes :=
  0 :: (wire r.owner.reverse ++ leb r.rrtype ++ wire r.bailiwick.reverse ++ rdataArray r.rdatas)

/-- Legal RRset: legal names, 16-bit type, rdata of at most 65535 bytes each. -/
def RRset.legal (r : RRset) : Prop :=
  legalName r.owner ∧ r.rrtype < 65536 ∧ legalName r.bailiwick ∧ ∀ d ∈ r.rdatas, d.length ≤ 65535

/-- One resource record seen from its data.  `lead` is the part of the record data in front of the
embedded name when the entry is stored sliced, and empty otherwise. -/
structure RR where
  owner : Name
  rrtype : Nat
  lead : Bytes
  tail : Bytes
deriving DecidableEq, Repr

/-- The record data. -/
def RR.rdata (r : RR) : Bytes := r.lead ++ r.tail

/-- 16-bit little-endian integer. -/
def word16 (n : Nat) : Bytes := [UInt8.ofNat (n % 256), UInt8.ofNat (n / 256)]

/-- Key layout of `ENTRY_TYPE_RDATA`, sliced (`lead ≠ []`) or not. -/
def RR.key (r : RR) : Bytes :=
  2 :: (r.tail ++ leb r.rrtype ++ wire r.owner.reverse ++ r.lead ++ word16 r.tail.length)

/-- Legal record: legal owner, 16-bit type, at most 65535 bytes of data. -/
def RR.legal (r : RR) : Prop :=
  legalName r.owner ∧ r.rrtype < 65536 ∧ r.rdata.length ≤ 65535

/-- Key of the forward owner-name index. -/
def fwdIndexKey (n : Name) : Bytes := 1 :: wire n

/-- Key of the reverse rdata-name index. -/
def revIndexKey (n : Name) : Bytes := 3 :: wire n.reverse

instance (o : Obs) : Decidable o.legal := by unfold Obs.legal; exact inferInstance
instance (r : RRset) : Decidable r.legal := by unfold RRset.legal; exact inferInstance
instance (r : RR) : Decidable r.legal := by unfold RR.legal; exact inferInstance

end Verif.Spec
