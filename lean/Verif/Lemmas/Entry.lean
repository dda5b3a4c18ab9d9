import Verif.Model.Entry
import Verif.Spec.Records
import Verif.Lemmas.Names
import Verif.Lemmas.Triplet

/-! Helper lemmas about entry decoding. -/

namespace Verif
open Spec

theorem Obs.value_eq (o : Obs) : o.value = tripletPack o.first o.last o.count := by
  rw [tripletPack_eq, Obs.value, List.append_assoc]

theorem decodeValTriplet_value (e : Entry) {o : Obs} (h : o.legal) :
    decodeValTriplet e o.value = .ok { e with
      timeFirst := o.fixed.first, timeLast := o.fixed.last, count := o.fixed.count } := by
  unfold decodeValTriplet
  rw [Obs.value_eq, tripletUnpack_pack h.1 h.2.1 h.2.2]
  rfl

theorem decodeName_wire {n : Name} (h : legalName n) (rest : Bytes) :
    decodeName (wire n ++ rest) = .ok (wire n.reverse, (wire n).length) := by
  unfold decodeName
  rw [lenUname_wire h.1]
  simp only [Out.ok_bind, List.take_left, reverseName_wire h.1]
  rw [if_neg]
  have := h.2
  simp only [maxLenName]; omega

theorem legalName_reverse {n : Name} (h : legalName n) : legalName n.reverse :=
  ⟨legalLabels_reverse.mpr h.1, by rw [wire_reverse_length]; exact h.2⟩

theorem decodeRdatas_nil : decodeRdatas [] = .ok [] := by rw [decodeRdatas]; simp

theorem decodeRdatas_array {ds : List Bytes} (h : ∀ d ∈ ds, d.length ≤ 65535) :
    decodeRdatas (rdataArray ds) = .ok ds := by
  induction ds with
  | nil => exact decodeRdatas_nil
  | cons d ds ih =>
    have hd := h d (List.mem_cons_self ..)
    have e : rdataArray (d :: ds) = leb d.length ++ (d ++ rdataArray ds) := by simp [rdataArray]
    have hpos := leb_length_pos d.length
    rw [decodeRdatas, dif_neg (by rw [e]; simp [leb_ne_nil]), e, decode32_leb (by omega)]
    simp only
    rw [if_neg (by omega), if_neg (by simp only [List.length_append]; omega), dif_neg (by omega)]
    have e2 : (leb d.length ++ (d ++ rdataArray ds)).drop ((leb d.length).length + d.length)
        = rdataArray ds := by
      rw [← List.drop_drop, List.drop_left, List.drop_left]
    rw [e2, ih (fun x hx => h x (List.mem_cons_of_mem _ hx))]
    simp only [List.drop_left, List.take_left]

theorem decodeRrset_key {r : RRset} (h : r.legal) (e : Entry) :
    decodeRrset e (wire r.owner.reverse ++ leb r.rrtype ++ wire r.bailiwick.reverse
        ++ rdataArray r.rdatas)
      = .ok { e with name := wire r.owner, rrtype := r.rrtype, bailiwick := wire r.bailiwick,
                     rdatas := e.rdatas ++ r.rdatas } := by
  obtain ⟨h1, h2, h3, h4⟩ := h
  unfold decodeRrset
  rw [List.append_assoc, List.append_assoc, decodeName_wire (legalName_reverse h1)]
  simp only [Out.ok_bind, List.drop_left, List.reverse_reverse]
  rw [decode32_leb (by omega)]
  simp only [Out.ok_bind, List.drop_left]
  rw [decodeName_wire (legalName_reverse h3)]
  simp only [Out.ok_bind, List.drop_left, List.reverse_reverse]
  rw [decodeRdatas_array h4]
  rfl

theorem word16_length (n : Nat) : (word16 n).length = 2 := rfl

theorem word16_val {n : Nat} (h : n < 65536) :
    (UInt8.ofNat (n % 256)).toNat + 256 * (UInt8.ofNat (n / 256)).toNat = n := by
  rw [u8_toNat_ofNat, u8_toNat_ofNat]; omega

theorem word16_inj {m n : Nat} (hm : m < 65536) (hn : n < 65536) (h : word16 m = word16 n) : m = n := by
  unfold word16 at h
  simp only [List.cons.injEq, and_true] at h
  rw [← word16_val hm, ← word16_val hn, h.1, h.2]

theorem decodeRdata_key {r : RR} (h : r.legal) (e : Entry) :
    decodeRdata e (r.tail ++ leb r.rrtype ++ wire r.owner.reverse ++ r.lead ++ word16 r.tail.length)
      = .ok { e with name := wire r.owner, rrtype := r.rrtype,
                     rdatas := e.rdatas ++ [r.rdata] } := by
  obtain ⟨h1, h2, h3⟩ := h
  have h3' : r.lead.length + r.tail.length ≤ 65535 := by simpa [RR.rdata] using h3
  have htl : r.tail.length < 65536 := by omega
  generalize hbody : r.tail ++ leb r.rrtype ++ wire r.owner.reverse ++ r.lead = body
  have hlen : (body ++ word16 r.tail.length).length = body.length + 2 := by
    rw [List.length_append, word16_length]
  have hbl : body.length = r.tail.length + (leb r.rrtype).length + (wire r.owner.reverse).length
      + r.lead.length := by rw [← hbody]; simp only [List.length_append]
  unfold decodeRdata
  rw [if_neg (by omega), hlen]
  simp only [Nat.add_sub_cancel]
  have g0 : byteAt (body ++ word16 r.tail.length) body.length
      = .ok (UInt8.ofNat (r.tail.length % 256)) := by
    simp [byteAt, word16]
  have g1 : byteAt (body ++ word16 r.tail.length) (body.length + 1)
      = .ok (UInt8.ofNat (r.tail.length / 256)) := by
    simp [byteAt, word16]
  rw [g0, g1]
  simp only [Out.ok_bind, word16_val htl, List.take_left]
  rw [if_neg (by omega)]
  have e1 : (body ++ word16 r.tail.length).drop r.tail.length
      = leb r.rrtype ++ (wire r.owner.reverse ++ r.lead ++ word16 r.tail.length) := by
    rw [← hbody]; simp [List.append_assoc]
  rw [e1, decode32_leb (by omega)]
  simp only [Out.ok_bind]
  rw [if_neg (by omega)]
  have e2 : body.drop (r.tail.length + (leb r.rrtype).length) = wire r.owner.reverse ++ r.lead := by
    rw [← hbody, ← List.drop_drop]; simp [List.append_assoc]
  rw [e2, decodeName_wire (legalName_reverse h1)]
  simp only [Out.ok_bind, List.reverse_reverse]
  have e3 : body.drop (r.tail.length + (leb r.rrtype).length + (wire r.owner.reverse).length)
      = r.lead := by
    rw [← List.drop_drop, e2]; simp
  have e4 : (body ++ word16 r.tail.length).take r.tail.length = r.tail := by
    rw [← hbody]; simp [List.append_assoc]
  rw [e3, e4]
  have e5 : (r.lead ++ r.tail).take ((r.lead ++ r.tail).length % 65536) = r.rdata := by
    rw [Nat.mod_eq_of_lt (by simp only [List.length_append]; omega), List.take_length]; rfl
  rw [e5]

theorem rdataArray_inj {a b : List Bytes}
    (h : rdataArray a = rdataArray b) : a = b := by
  induction a generalizing b with
  | nil =>
    cases b with
    | nil => rfl
    | cons d ds =>
      simp [rdataArray, leb_ne_nil] at h
  | cons c cs ih =>
    cases b with
    | nil => simp [rdataArray, leb_ne_nil] at h
    | cons d ds =>
      have e : ∀ x xs, rdataArray (x :: xs) = leb x.length ++ (x ++ rdataArray xs) := by
        intro x xs; simp [rdataArray]
      rw [e, e] at h
      obtain ⟨h1, h2⟩ := terminated_prefix_eq (leb_terminated _) (leb_terminated _) h
      obtain ⟨h3, h4⟩ := List.append_inj h2 (leb_inj h1)
      rw [h3, ih h4]

theorem rrset_key_inj {r s : RRset} (hr : r.legal) (hs : s.legal) (h : r.key = s.key) : r = s := by
  obtain ⟨o, t, b, ds⟩ := r
  obtain ⟨o', t', b', ds'⟩ := s
  simp only [RRset.key, List.cons.injEq, true_and, List.append_assoc] at h
  obtain ⟨h1, h⟩ := wire_append_inj (legalLabels_reverse.mpr hr.1.1) (legalLabels_reverse.mpr hs.1.1) h
  obtain ⟨h2, h⟩ := terminated_prefix_eq (leb_terminated _) (leb_terminated _) h
  obtain ⟨h3, h⟩ := wire_append_inj (legalLabels_reverse.mpr hr.2.2.1.1)
    (legalLabels_reverse.mpr hs.2.2.1.1) h
  simp only [RRset.mk.injEq]
  exact ⟨List.reverse_inj.mp h1, leb_inj h2, List.reverse_inj.mp h3, rdataArray_inj h⟩

theorem rr_key_inj {r s : RR} (hr : r.legal) (hs : s.legal) (h : r.key = s.key) : r = s := by
  obtain ⟨o, t, l, d⟩ := r
  obtain ⟨o', t', l', d'⟩ := s
  have hl : ∀ {x : RR}, x.legal → x.tail.length < 65536 := by
    intro x hx
    have := hx.2.2
    simp only [RR.rdata, List.length_append] at this
    omega
  simp only [RR.key, List.cons.injEq, true_and] at h
  obtain ⟨h, h0⟩ := List.append_inj' h rfl
  have h0 := word16_inj (hl hr) (hl hs) h0
  simp only [List.append_assoc] at h
  obtain ⟨h1, h⟩ := List.append_inj h h0
  obtain ⟨h2, h⟩ := terminated_prefix_eq (leb_terminated _) (leb_terminated _) h
  obtain ⟨h3, h⟩ := wire_append_inj (legalLabels_reverse.mpr hr.1.1) (legalLabels_reverse.mpr hs.1.1) h
  simp only [RR.mk.injEq]
  exact ⟨List.reverse_inj.mp h3, leb_inj h2, h, h1⟩

end Verif
