import Verif.Spec.Store

/-!
# Specification: name indexes and names in record data

What dnstable-encoding(5) promises about the two name indexes, and which name the stored data of a
record begin with.
-/

namespace Verif.Spec

/-- The name of a forward index entry. -/
def fwdName : Rec → Option Name
  | .fwd n _ => some n
  | _ => none

/-- The name of a reverse index entry. -/
def revName : Rec → Option Name
  | .rev n _ => some n
  | _ => none

/-- The forward index is as documented: every owner of an RRset has an entry whose type set (if there
is one) has the type of the RRset, and no name has two entries. -/
structure FwdIndexed (Ts : List Rec) : Prop where
  complete : ∀ r o, Rec.rrset r o ∈ Ts → ∃ s, Rec.fwd r.owner s ∈ Ts
  types : ∀ r o s, Rec.rrset r o ∈ Ts → Rec.fwd r.owner (some s) ∈ Ts → s.has r.rrtype = true
  once : (Ts.filterMap fwdName).Nodup

/-- The entries in `Xs` are a forward index for those RRsets of `Ts` that are within the bounds. -/
structure FwdLists (b : Bounds) (Xs Ts : List Rec) : Prop where
  complete : ∀ r o, Rec.rrset r o ∈ Ts → inBounds b o = true → ∃ s, Rec.fwd r.owner s ∈ Xs
  types : ∀ r o s, Rec.rrset r o ∈ Ts → inBounds b o = true → Rec.fwd r.owner (some s) ∈ Xs → s.has r.rrtype = true
  once : (Xs.filterMap fwdName).Nodup

theorem FwdIndexed.lists {Ts : List Rec} (h : FwdIndexed Ts) (b : Bounds) : FwdLists b Ts Ts :=
  ⟨fun r o hr _ => h.complete r o hr, fun r o s hr _ => h.types r o s hr, h.once⟩

/-- The records in the order of a text that each has; those with the same text stay in their order (`mergeSort` is a
stable sort). -/
def sortedBy (text : Rec → Bytes) (l : List Rec) : List Rec :=
  l.mergeSort fun x y => lexLe (text x) (text y)

/-- The owner name of an RRset, as a text. -/
def ownerText : Rec → Bytes
  | .rrset r _ => wire r.owner
  | _ => []

/-- The name in the data of a record, as a text that starts with the last label. -/
def targetText (target : RR → Option Name) : Rec → Bytes
  | .rr r _ => ((target r).map fun m => wire m.reverse).getD []
  | _ => []

/-- The bitmap ends right in front of the byte that would hold the bit of type `t`, in a block of the
window of `t`.  Testing `t` then reads one byte too far (`C10_overread_counterexample`). -/
def endsBefore (t : Nat) : TypeSet → Prop
  | .bitmap bl => ∃ bl' b, bl = bl' ++ [b] ∧ b.window.toNat = t / 256 ∧ b.bits.length = t % 256 / 8
  | _ => False

/-- The record types whose data contain a domain name, as far as name queries are concerned: NS, CNAME,
SOA, PTR, MX, RP, NXT, SRV, DNAME, NSEC, SVCB, HTTPS. -/
def nameTypes : List Nat := [2, 5, 6, 12, 15, 17, 30, 33, 39, 47, 64, 65]

/-- The record types whose (sliced) data are nothing but a domain name: NS, CNAME, PTR, MX, SRV, DNAME. -/
def bareNameTypes : List Nat := [2, 5, 12, 15, 33, 39]

/-- `target r` is the name the stored data of `r` begin with.  `none`: they begin with no name at all,
because the labels run into a byte that is no label length. -/
def Leads (target : RR → Option Name) (r : RR) : Prop :=
  match target r with
  | some m => legalLabels m ∧ wire m <+: r.tail
  | none => ∃ m b, legalLabels m ∧ 63 < b.toNat ∧ flat m ++ [b] <+: r.tail

/-- `target` tells the leading names of all stored records of name-bearing types. -/
def Targets (target : RR → Option Name) (Ts : List Rec) : Prop :=
  ∀ r o, Rec.rr r o ∈ Ts → r.rrtype ∈ nameTypes → Leads target r

/-- The stored data of records of type `t` that begin with the name `n` are just that name. -/
def Bare (target : RR → Option Name) (t : Nat) (Ts : List Rec) (n : Name) : Prop :=
  ∀ r o, Rec.rr r o ∈ Ts → r.rrtype = t → target r = some n → r.tail = wire n

/-- The record is of a name-bearing type and begins with a name of the given kind. -/
def namesIn (target : RR → Option Name) (want : Name → Bool) (r : RR) : Bool :=
  nameTypes.contains r.rrtype && (target r).any want

/-- There is a reverse index entry for `n`. -/
def revListed (Ts : List Rec) (n : Name) : Bool := Ts.any fun x => revName x == some n

/-- No name has two reverse index entries, and the type sets are truthful about the type `t`. -/
structure RevIndexed (target : RR → Option Name) (ty : Option Nat) (Ts : List Rec) : Prop where
  types : ∀ r o n s, Rec.rr r o ∈ Ts → ty = some r.rrtype → target r = some n → Rec.rev n (some s) ∈ Ts →
    s.has r.rrtype = true
  once : (Ts.filterMap revName).Nodup

/-- The same for the entries in `Xs` about those records of `Ts` that are within the bounds. -/
structure RevLists (target : RR → Option Name) (ty : Option Nat) (b : Bounds) (Xs Ts : List Rec) : Prop where
  types : ∀ r o n s, Rec.rr r o ∈ Ts → inBounds b o = true → ty = some r.rrtype → target r = some n →
    Rec.rev n (some s) ∈ Xs → s.has r.rrtype = true
  once : (Xs.filterMap revName).Nodup

theorem RevIndexed.lists {target : RR → Option Name} {ty : Option Nat} {Ts : List Rec} (h : RevIndexed target ty Ts)
    (b : Bounds) : RevLists target ty b Ts Ts :=
  ⟨fun r o n s hr _ => h.types r o n s hr, h.once⟩

/-- Every stored record of a type in `tys` that begins with a name is listed in the reverse index. -/
def RevComplete (target : RR → Option Name) (tys : Nat → Bool) (Ts : List Rec) : Prop :=
  ∀ r o n, Rec.rr r o ∈ Ts → tys r.rrtype = true → target r = some n → revListed Ts n = true

/-- The types covered by the reverse index according to dnstable-encoding(5). -/
def indexedTypes : List Nat := [2, 5, 6, 12, 15, 33, 39, 64, 65]

end Verif.Spec
