import Verif.Spec.Store

/-!
# Specification: address ranges
-/

namespace Verif.Spec

/-- The two kinds of address records: length of the address and record type, A or AAAA. -/
def AddrKind (L t : Nat) : Prop := (L = 4 ∧ t = 1) ∨ (L = 16 ∧ t = 28)

/-- The records of the type are well-formed: their data is an address, and stored as such. -/
def AddrRecords (L t : Nat) (Ts : List Rec) : Prop :=
  ∀ r o, Rec.rr r o ∈ Ts → r.rrtype = t → r.lead = [] ∧ r.tail.length = L

/-- Value of an address as a number, most significant byte first. -/
def addrVal (x : Bytes) : Nat := x.foldl (fun v b => 256 * v + b.toNat) 0

/-- A key of exactly the length of entry type and address; or one which, behind entry type, as many bytes
as an address has and the type, consists of complete labels up to its last byte. -/
def CutShort (L t : Nat) (k : Bytes) : Prop :=
  k.length = L + 1 ∨ ∃ a ls, a.length = L ∧ ls ≠ [] ∧ legalLabels ls ∧ k = 2 :: (a ++ UInt8.ofNat t :: flat ls)

/-- No record of another type within the span of keys from address `lo` to address `hi` has a `CutShort` key. -/
def NoneCut (L t : Nat) (lo hi : Bytes) (Ts : List Rec) : Prop :=
  ∀ r o, Rec.rr r o ∈ Ts → r.rrtype ≠ t → lexLe (2 :: lo) r.key = true →
    lexLe r.key (2 :: hi ++ [UInt8.ofNat (t + 1)]) = true → ¬ CutShort L t r.key

/-- The data lies between two addresses, as numbers. -/
def between (lo hi : Bytes) (r : RR) : Bool := decide (addrVal lo ≤ addrVal r.tail) && decide (addrVal r.tail ≤ addrVal hi)

/-- The query for the addresses from `lo` to `hi`, or for `lo` if `hi` is empty. -/
def Ask.addresses (a : Ask) (t : Nat) (lo hi : Bytes) : Query :=
  { a.query .rdataIp [] with doRrtype := true, rrtype := t, ip1 := lo, ip2 := hi }

end Verif.Spec
