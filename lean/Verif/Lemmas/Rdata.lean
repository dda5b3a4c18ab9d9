import Verif.Lemmas.Index

/-!
# Lemmas: names at the beginning of record data
-/

namespace Verif
open Spec

theorem nameTypes_contains (t : Nat) : rdataNameTypes.contains t = nameTypes.contains t := by
  rw [Bool.eq_iff_iff]
  simp only [rdataNameTypes, standaloneTypes, nameTypes, List.contains_iff_mem, List.mem_cons, List.mem_append,
    List.not_mem_nil, or_false]
  omega

theorem bareNameTypes_contains (t : Nat) : standaloneTypes.contains t = bareNameTypes.contains t := by
  rw [Bool.eq_iff_iff]
  simp only [standaloneTypes, bareNameTypes, List.contains_iff_mem, List.mem_cons, List.not_mem_nil, or_false]
  omega

/-- Labels that continue another list of labels which runs into a byte that is no label length. -/
theorem flat_stop {f m : Name} {b : UInt8} {s : Bytes} (hf : legalLabels f) (hm : legalLabels m)
    (hb : 63 < b.toNat) (h : flat f <+: flat m ++ b :: s) : f <+: m := by
  induction m generalizing f with
  | nil =>
    cases f with
    | nil => exact List.nil_prefix
    | cons l f =>
      rw [legalLabels_cons] at hf
      rw [flat_cons] at h
      simp only [flat_nil, List.nil_append, List.cons_prefix_cons] at h
      have := congrArg UInt8.toNat h.1
      rw [label_len_toNat hf.1] at this
      have := hf.1.2
      omega
  | cons k m ih =>
    cases f with
    | nil => exact List.nil_prefix
    | cons l f =>
      rw [legalLabels_cons] at hf hm
      rw [flat_cons, flat_cons] at h
      simp only [List.cons_append, List.cons_prefix_cons, List.append_assoc] at h
      have hl : l.length = k.length := by
        have := congrArg UInt8.toNat h.1
        rwa [label_len_toNat hf.1, label_len_toNat hm.1] at this
      have hlk : l = k := by
        have h1 : l <+: k ++ (flat m ++ b :: s) := (List.prefix_append _ _).trans h.2
        have h2 := List.prefix_of_prefix_length_le h1 (List.prefix_append k _) (by omega)
        exact h2.eq_of_length hl
      subst hlk
      have h3 := ih hf.2 hm.2 ((List.prefix_append_right_inj l).1 h.2)
      exact (List.cons_prefix_cons).2 ⟨rfl, h3⟩

theorem wire_stop {n m : Name} {b : UInt8} {s : Bytes} (hn : legalLabels n) (hm : legalLabels m)
    (hb : 63 < b.toNat) : ¬ wire n <+: flat m ++ b :: s := by
  intro h
  have h1 : flat n <+: flat m ++ b :: s := (List.prefix_append _ _).trans h
  obtain ⟨r, rfl⟩ := flat_stop hn hm hb h1
  rw [wire, flat_append, List.append_assoc, List.prefix_append_right_inj] at h
  cases r with
  | nil =>
    simp only [flat_nil, List.nil_append, List.cons_prefix_cons] at h
    rw [← h.1] at hb
    simp at hb
  | cons l r =>
    rw [legalLabels_append, legalLabels_cons] at hm
    rw [flat_cons] at h
    simp only [List.cons_append, List.cons_prefix_cons] at h
    have := congrArg UInt8.toNat h.1
    rw [label_len_toNat hm.2.1] at this
    have := hm.2.1.1
    simp at *
    omega

theorem lead_wire {target : RR → Option Name} {r : RR} (h : Leads target r) {n : Name} (hn : legalLabels n)
    (s : Bytes) : wire n <+: r.tail ++ s ↔ target r = some n := by
  unfold Leads at h
  cases ht : target r with
  | some m =>
    rw [ht] at h
    obtain ⟨hm, rest, hr⟩ := h
    have := wire_append_prefix hn hm [] (rest ++ s)
    rw [← hr, List.append_assoc]
    rw [List.append_nil] at this
    rw [this]
    simp [eq_comm]
  | none =>
    rw [ht] at h
    obtain ⟨m, b, hm, hb, rest, hr⟩ := h
    rw [← hr]
    simp only [List.append_assoc, List.cons_append, List.nil_append, reduceCtorEq, iff_false]
    exact wire_stop hn hm hb

theorem lead_flat {target : RR → Option Name} {r : RR} (h : Leads target r) {f : Name} (hf : legalLabels f)
    (hnone : target r = none → ¬ flat f <+: r.tail)
    (s : Bytes) : flat f <+: r.tail ++ s ↔ ∃ m, target r = some m ∧ f <+: m := by
  unfold Leads at h
  cases ht : target r with
  | some m =>
    rw [ht] at h
    obtain ⟨hm, rest, hr⟩ := h
    rw [← hr, List.append_assoc, flat_prefix_iff hf hm]
    simp
  | none =>
    rw [ht] at h
    obtain ⟨m, b, hm, hb, rest, hr⟩ := h
    simp only [reduceCtorEq, false_and, exists_false, iff_false]
    intro h2
    apply hnone ht
    rw [← hr] at h2 ⊢
    simp only [List.append_assoc, List.cons_append, List.nil_append] at h2 ⊢
    obtain ⟨u, rfl⟩ := flat_stop hf hm hb h2
    rw [flat_append, List.append_assoc]
    exact List.prefix_append _ _

theorem rr_key_eq (r : RR) :
    r.key = 2 :: (r.tail ++ (leb r.rrtype ++ (wire r.owner.reverse ++ (r.lead ++ word16 r.tail.length)))) := by
  simp [RR.key]

theorem eq_of_not_rr {want : Rec → Bool} {x : Rec} {p : Bytes} {b : Bool}
    (h0 : (∀ r o, x ≠ .rr r o) → want x = false)
    (h1 : ∀ r o, x = .rr r o → want x = (inView (.pfx (2 :: p)) x.key && b)) :
    want x = (inView (.pfx (2 :: p)) x.key && b) := by
  by_cases hx : ∃ r o, x = .rr r o
  · obtain ⟨r, o, rfl⟩ := hx; exact h1 r o rfl
  · have : ∀ r o, x ≠ .rr r o := fun r o h => hx ⟨r, o, h⟩
    rw [h0 this]
    cases hv : inView (.pfx (2 :: p)) x.key with
    | true => exact absurd (pfx_rr hv) hx
    | false => rfl

theorem wantRr_not {want : RR → Bool} {ty : Option Nat} {b : Bounds} {x : Rec} (h : ∀ r o, x ≠ .rr r o) :
    wantRr want ty b x = false := by
  cases x with
  | rr r o => exact absurd rfl (h r o)
  | _ => rfl

theorem rdataNameFilter_passes {a : Ask} {k : QType} {nm : Bytes} (hty : ∀ t, a.ty = some t → t ∈ nameTypes)
    {r : RR} (hr : r.legal) (v : Bytes) :
    passes (rdataNameFilter (a.query k nm)).2 (r.key, v) =
      (nameTypes.contains r.rrtype && a.ty.all (· == r.rrtype)) := by
  unfold rdataNameFilter
  cases ht : a.ty with
  | none =>
    have hd : (a.query k nm).doRrtype = false := by simp [Ask.query, ht]
    rw [hd, if_neg (by simp)]
    simp only [Option.all_none, Bool.and_true]
    rw [passes_rdataName_rr hr, nameTypes_contains]
  | some t =>
    have hd : (a.query k nm).doRrtype = true := by simp [Ask.query, ht]
    have hrt : (a.query k nm).rrtype = t := by simp [Ask.query, ht]
    rw [hd, if_pos rfl, hrt]
    simp only [Option.all_some]
    rw [passes_rrtype_rr hr, Bool.eq_iff_iff]
    simp only [beq_iff_eq, Bool.and_eq_true, List.contains_iff_mem]
    constructor
    · intro h; exact ⟨h ▸ hty t ht, h⟩
    · exact fun h => h.2

theorem rdataNameFilter_good {a : Ask} {k : QType} {nm : Bytes} {T : Table}
    (h : ∀ kv ∈ T, ∃ r : RR, r.legal ∧ kv.1 = r.key) :
    Good (rdataNameFilter (a.query k nm)).2 (passes (rdataNameFilter (a.query k nm)).2) T := by
  unfold rdataNameFilter
  split
  · exact good_rrtype _ fun kv hkv => .inr (h kv hkv)
  · exact good_rdataName h

theorem rowsIn_rr {Ts : List Rec} (hS : Stored Ts) {p : Bytes} :
    ∀ kv ∈ rowsIn (rowsOf Ts) (.pfx (2 :: p)), ∃ r : RR, r.legal ∧ kv.1 = r.key := by
  intro kv hkv
  obtain ⟨x, hx, rfl, hv⟩ := rowsIn_rec hkv
  obtain ⟨r, o, rfl⟩ := pfx_rr hv
  exact ⟨r, (hS.legal _ hx).1, rfl⟩

/-- The records found under a name, with the type in the key or not. -/
theorem name_lookup {Ts : List Rec} {target : RR → Option Name} (hT : Targets target Ts)
    {n : Name} (hn : legalLabels n) {ty : Option Nat}
    (hB : ∀ t, ty = some t → t ∈ bareNameTypes → Bare target t Ts n)
    {r : RR} {o : Obs} (hr : Rec.rr r o ∈ Ts) {s : Bytes}
    (hs : s = [] ∨ ∃ t, ty = some t ∧ t ∈ bareNameTypes ∧ s = leb t) :
    (inView (.pfx (2 :: (wire n ++ s))) r.key && (nameTypes.contains r.rrtype && ty.all (· == r.rrtype))) =
      (namesIn target (· == n) r && ty.all (· == r.rrtype)) := by
  unfold namesIn
  cases hN : nameTypes.contains r.rrtype with
  | false => simp
  | true =>
    simp only [Bool.true_and]
    cases hy : ty.all (· == r.rrtype) with
    | false => simp
    | true =>
      simp only [Bool.and_true]
      have hL := hT r o hr (by simpa using hN)
      rw [Bool.eq_iff_iff, inView_pfx, rr_key_eq, List.cons_prefix_cons]
      have e : (Option.any (fun x => x == n) (target r) = true) ↔ target r = some n := by
        cases target r <;> simp
      rw [e]
      simp only [true_and]
      rcases hs with rfl | ⟨t, ht, htb, rfl⟩
      · rw [List.append_nil]; exact lead_wire hL hn _
      · have hrt : t = r.rrtype := by rw [ht] at hy; simpa using hy
        constructor
        · intro h
          exact (lead_wire hL hn _).1 ((List.prefix_append _ _).trans h)
        · intro h
          rw [hB t ht htb r o hr hrt.symm h, hrt]
          rw [List.prefix_append_right_inj]
          exact List.prefix_append _ _

end Verif
