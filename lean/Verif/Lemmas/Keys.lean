import Verif.Lemmas.Skip

/-!
# Lemmas: filters and views on the keys of records
-/

namespace Verif
open Spec

theorem rrset_key_split (r : RRset) :
    r.key.drop 1 = wire r.owner.reverse ++ (leb r.rrtype ++ (wire r.bailiwick.reverse ++ rdataArray r.rdatas)) := by
  simp [RRset.key]

theorem rrtypePosRrset_key {r : RRset} (h : r.legal) :
    rrtypePosRrset r.key = some ((wire r.owner.reverse).length + 1) := by
  unfold rrtypePosRrset
  rw [rrset_key_split, parseLabels_wire (legalLabels_reverse.mpr h.1.1)]
  simp only
  have h1 := leb_length_pos r.rrtype
  have h2 := wire_length_pos r.bailiwick.reverse
  rw [if_neg]
  · simp only [List.length_append]; congr 1; omega
  · simp only [RRset.key, List.length_append, List.length_cons]; omega

theorem drop_type_rrset (r : RRset) :
    r.key.drop ((wire r.owner.reverse).length + 1) =
      leb r.rrtype ++ (wire r.bailiwick.reverse ++ rdataArray r.rdatas) := by
  rw [RRset.key, List.drop_succ_cons]
  simp only [List.append_assoc, List.drop_left]

theorem rrtypeMatch_rrset {r : RRset} (h : r.legal) (want : Nat) :
    rrtypeMatch want r.key = .ok (r.rrtype == want) := by
  unfold rrtypeMatch
  have h0 : byteAt r.key 0 = .ok 0 := rfl
  rw [h0]
  simp only [Out.ok_bind]
  rw [if_pos (by rfl), rrtypePosRrset_key h]
  simp only
  rw [drop_type_rrset, decode32_leb (by have := h.2.1; omega)]
  have := leb_length_pos r.rrtype
  simp only [Out.ok_bind]
  rw [if_neg (by omega)]

theorem bailiwickMatch_rrset {r : RRset} (h : r.legal) (bw : Bytes) :
    bailiwickMatch bw r.key = .ok (wire r.bailiwick.reverse == bw) := by
  unfold bailiwickMatch
  rw [rrtypePosRrset_key h]
  simp only
  rw [drop_type_rrset, decode32_leb (by have := h.2.1; omega)]
  simp only [Out.ok_bind]
  have e : r.key.drop ((wire r.owner.reverse).length + 1 + (leb r.rrtype).length) =
      wire r.bailiwick.reverse ++ rdataArray r.rdatas := by
    rw [← List.drop_drop, drop_type_rrset, List.drop_left]
  have hp := wire_length_pos r.bailiwick.reverse
  rw [e, parseLabels_wire (legalLabels_reverse.mpr h.2.2.1.1), if_neg]
  · simp
  · intro hcon
    rw [List.drop_of_length_le hcon] at e
    have := congrArg List.length e
    simp at this; omega

theorem rr_key_length (r : RR) : r.key.length =
    r.tail.length + (leb r.rrtype).length + (wire r.owner.reverse).length + r.lead.length + 3 := by
  simp only [RR.key, List.length_append, List.length_cons, word16_length]

theorem rrtypePosRdata_key {r : RR} (h : r.legal) : rrtypePosRdata r.key = .ok (some (r.tail.length + 1)) := by
  have h1 := leb_length_pos r.rrtype
  have h2 := wire_length_pos r.owner.reverse
  have hl : r.tail.length < 65536 := by
    have := h.2.2; simp only [RR.rdata, List.length_append] at this; omega
  have hk : r.key = (2 :: (r.tail ++ leb r.rrtype ++ wire r.owner.reverse ++ r.lead)) ++ word16 r.tail.length := by
    simp [RR.key]
  have hlen := rr_key_length r
  have hlo : byteAt r.key (r.key.length - 2) = .ok (UInt8.ofNat (r.tail.length % 256)) := by
    have e : r.key.length - 2 = (2 :: (r.tail ++ leb r.rrtype ++ wire r.owner.reverse ++ r.lead)).length := by
      rw [hk]; simp [word16_length]; omega
    rw [e, hk]; exact byteAt_append _ _ _
  have hhi : byteAt r.key (r.key.length - 1) = .ok (UInt8.ofNat (r.tail.length / 256)) := by
    have e : r.key.length - 1 =
        ((2 :: (r.tail ++ leb r.rrtype ++ wire r.owner.reverse ++ r.lead)) ++ [UInt8.ofNat (r.tail.length % 256)]).length := by
      rw [hk]; simp [word16_length]; omega
    have e2 : r.key = ((2 :: (r.tail ++ leb r.rrtype ++ wire r.owner.reverse ++ r.lead)) ++
        [UInt8.ofNat (r.tail.length % 256)]) ++ [UInt8.ofNat (r.tail.length / 256)] := by
      rw [hk]; simp [word16]
    rw [e]
    rw [e2]
    exact byteAt_append _ _ _
  unfold rrtypePosRdata
  rw [if_neg (by omega), hlo, hhi]
  have hv : le16 (UInt8.ofNat (r.tail.length % 256)) (UInt8.ofNat (r.tail.length / 256)) = r.tail.length := by
    rw [le16]; exact word16_val hl
  simp only [Out.ok_bind, hv]
  rw [if_neg (by omega)]

theorem drop_type_rr (r : RR) :
    r.key.drop (r.tail.length + 1) = leb r.rrtype ++ (wire r.owner.reverse ++ (r.lead ++ word16 r.tail.length)) := by
  rw [RR.key, List.drop_succ_cons]
  simp only [List.append_assoc, List.drop_left]

theorem rrtypeMatch_rr {r : RR} (h : r.legal) (want : Nat) :
    rrtypeMatch want r.key = .ok (r.rrtype == want) := by
  unfold rrtypeMatch
  have h0 : byteAt r.key 0 = .ok 2 := rfl
  rw [h0]
  simp only [Out.ok_bind]
  rw [if_neg (by decide), if_pos (by rfl), rrtypePosRdata_key h]
  simp only [Out.ok_bind]
  rw [drop_type_rr, decode32_leb (by have := h.2.1; omega)]
  have := leb_length_pos r.rrtype
  simp only [Out.ok_bind]
  rw [if_neg (by omega)]

theorem rdataNameMatch_rr {r : RR} (h : r.legal) :
    rdataNameMatch r.key = .ok (rdataNameTypes.contains r.rrtype) := by
  unfold rdataNameMatch
  rw [rrtypePosRdata_key h]
  simp only [Out.ok_bind]
  rw [drop_type_rr, decode32_leb (by have := h.2.1; omega)]
  rfl

/-! ## Views -/

theorem pfx_rrset {p : Bytes} {x : Rec} (h : inView (.pfx (0 :: p)) x.key = true) : ∃ r o, x = .rrset r o := by
  cases x with
  | rrset r o => exact ⟨r, o, rfl⟩
  | _ => simp [inView, Rec.key, RR.key, fwdIndexKey, revIndexKey] at h

theorem pfx_rr {p : Bytes} {x : Rec} (h : inView (.pfx (2 :: p)) x.key = true) : ∃ r o, x = .rr r o := by
  cases x with
  | rr r o => exact ⟨r, o, rfl⟩
  | _ => simp [inView, Rec.key, RRset.key, fwdIndexKey, revIndexKey] at h

theorem pfx_fwd {p : Bytes} {x : Rec} (h : inView (.pfx (1 :: p)) x.key = true) : ∃ n s, x = .fwd n s := by
  cases x with
  | fwd r o => exact ⟨r, o, rfl⟩
  | _ => simp [inView, Rec.key, RRset.key, RR.key, revIndexKey] at h

theorem pfx_rev {p : Bytes} {x : Rec} (h : inView (.pfx (3 :: p)) x.key = true) : ∃ n s, x = .rev n s := by
  cases x with
  | rev r o => exact ⟨r, o, rfl⟩
  | _ => simp [inView, Rec.key, RRset.key, RR.key, fwdIndexKey] at h

/-- Every row of a view comes from a record in it. -/
theorem rowsIn_rec {Ts : List Rec} {V : View} {kv : KV} (h : kv ∈ rowsIn (rowsOf Ts) V) :
    ∃ x ∈ Ts, kv = x.row ∧ inView V x.key = true := by
  obtain ⟨h1, h2⟩ := List.mem_filter.1 h
  obtain ⟨x, hx, rfl⟩ := List.mem_map.1 h1
  exact ⟨x, hx, rfl, h2⟩

theorem wire_eq_iff {m n : Name} (hm : legalLabels m) (hn : legalLabels n) :
    (wire m.reverse == wire n.reverse) = (n == m) := by
  rw [Bool.eq_iff_iff]
  simp only [beq_iff_eq]
  constructor
  · intro h
    have := wire_inj (legalLabels_reverse.mpr hm) (legalLabels_reverse.mpr hn) h
    exact (List.reverse_inj.1 this).symm
  · rintro rfl; rfl

/-! ## Filters on rows of RRsets and records -/

theorem good_rrtype {T : Table} (want : Nat)
    (h : ∀ kv ∈ T, (∃ r : RRset, r.legal ∧ kv.1 = r.key) ∨ ∃ r : RR, r.legal ∧ kv.1 = r.key) :
    Good (filterRrtype want) (passes (filterRrtype want)) T := by
  apply good_verdictOf (m := fun kv => rrtypeMatch want kv.1)
  intro kv hkv
  rcases h kv hkv with ⟨r, hr, e⟩ | ⟨r, hr, e⟩
  · exact ⟨_, by rw [e]; exact rrtypeMatch_rrset hr want⟩
  · exact ⟨_, by rw [e]; exact rrtypeMatch_rr hr want⟩

theorem good_bailiwick {T : Table} (bw : Bytes) (h : ∀ kv ∈ T, ∃ r : RRset, r.legal ∧ kv.1 = r.key) :
    Good (filterBailiwick bw) (passes (filterBailiwick bw)) T := by
  apply good_verdictOf (m := fun kv => bailiwickMatch bw kv.1)
  intro kv hkv
  obtain ⟨r, hr, e⟩ := h kv hkv
  exact ⟨_, by rw [e]; exact bailiwickMatch_rrset hr bw⟩

theorem good_rdataName {T : Table} (h : ∀ kv ∈ T, ∃ r : RR, r.legal ∧ kv.1 = r.key) :
    Good filterRrtypeRdataName (passes filterRrtypeRdataName) T := by
  apply good_verdictOf (m := fun kv => rdataNameMatch kv.1)
  intro kv hkv
  obtain ⟨r, hr, e⟩ := h kv hkv
  exact ⟨_, by rw [e]; exact rdataNameMatch_rr hr⟩

theorem passes_rrtype_rrset {r : RRset} (h : r.legal) (want : Nat) (v : Bytes) :
    passes (filterRrtype want) (r.key, v) = (want == r.rrtype) := by
  rw [show filterRrtype want = fun kv => verdictOf (rrtypeMatch want kv.1) from rfl, passes_verdictOf]
  simp only [rrtypeMatch_rrset h, Out.ok.injEq, Bool.decide_eq_true]
  exact BEq.comm

theorem passes_rrtype_rr {r : RR} (h : r.legal) (want : Nat) (v : Bytes) :
    passes (filterRrtype want) (r.key, v) = (want == r.rrtype) := by
  rw [show filterRrtype want = fun kv => verdictOf (rrtypeMatch want kv.1) from rfl, passes_verdictOf]
  simp only [rrtypeMatch_rr h, Out.ok.injEq, Bool.decide_eq_true]
  exact BEq.comm

theorem passes_rdataName_rr {r : RR} (h : r.legal) (v : Bytes) :
    passes filterRrtypeRdataName (r.key, v) = rdataNameTypes.contains r.rrtype := by
  rw [show filterRrtypeRdataName = fun kv => verdictOf (rdataNameMatch kv.1) from rfl, passes_verdictOf]
  simp only [rdataNameMatch_rr h, Out.ok.injEq, Bool.decide_eq_true]

theorem passes_bailiwick_rrset {r : RRset} (h : r.legal) {bw : Name} (hbw : legalLabels bw) (v : Bytes) :
    passes (filterBailiwick (wire bw.reverse)) (r.key, v) = (bw == r.bailiwick) := by
  rw [show filterBailiwick (wire bw.reverse) = fun kv => verdictOf (bailiwickMatch (wire bw.reverse) kv.1) from rfl,
    passes_verdictOf]
  simp only [bailiwickMatch_rrset h, Out.ok.injEq, Bool.decide_eq_true]
  exact wire_eq_iff h.2.2.1.1 hbw

end Verif
