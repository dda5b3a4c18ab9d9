import Verif.Lemmas.Merge

/-!
# C04, C05, C06: aggregation of records and of metadata
-/

namespace Verif.Props
open Verif Verif.Spec

/-- C04: for an RRset (type byte 0) or rdata (type byte 2) key the merge function turns two packed
observations into the minimum first-seen, maximum last-seen and sum (mod 2^64) of the counts. -/
theorem C04_merge_triplets (key : Bytes) (hk : key.head? = some 0 ∨ key.head? = some 2)
    (tf0 tl0 c0 tf1 tl1 c1 : Nat)
    (h0 : tf0 < 2 ^ 64 ∧ tl0 < 2 ^ 64 ∧ c0 < 2 ^ 64)
    (h1 : tf1 < 2 ^ 64 ∧ tl1 < 2 ^ 64 ∧ c1 < 2 ^ 64) :
    mergeFunc key (tripletPack tf0 tl0 c0) (tripletPack tf1 tl1 c1)
      = .ok (tripletPack (min tf0 tf1) (max tl0 tl1) ((c0 + c1) % 2 ^ 64)) := by
  cases key with
  | nil => simp at hk
  | cons t ks =>
    have ht : t = etRrset ∨ t = etRdata := by simpa [etRrset, etRdata] using hk
    simp only [mergeFunc, ht, if_true]
    exact mergeTriplets_pack h0.1 h0.2.1 h0.2.2 h1.1 h1.2.1 h1.2.2

example : mergeFunc [0, 3, 99, 111, 109, 0, 1] (tripletPack 500 700 3) (tripletPack 400 600 (2 ^ 64 - 1))
    = .ok (tripletPack 400 700 2) := by decide +kernel

/-- C04: the merged value reads back as exactly the aggregate. -/
theorem C04_merge_triplets_observed (key : Bytes) (hk : key.head? = some 0 ∨ key.head? = some 2)
    (tf0 tl0 c0 tf1 tl1 c1 : Nat)
    (h0 : tf0 < 2 ^ 64 ∧ tl0 < 2 ^ 64 ∧ c0 < 2 ^ 64)
    (h1 : tf1 < 2 ^ 64 ∧ tl1 < 2 ^ 64 ∧ c1 < 2 ^ 64) :
    (mergeFunc key (tripletPack tf0 tl0 c0) (tripletPack tf1 tl1 c1) >>= tripletUnpack)
      = .ok (min tf0 tf1, max tl0 tl1, (c0 + c1) % 2 ^ 64) := by
  rw [C04_merge_triplets key hk _ _ _ _ _ _ h0 h1, Out.ok_bind]
  exact tripletUnpack_pack (by omega) (by omega) (Nat.mod_lt _ (by decide))

example : (mergeFunc [2, 1, 1] (tripletPack 5 7 1) (tripletPack 6 9 1) >>= tripletUnpack)
    = .ok (5, 9, 2) := by decide +kernel

/-- C05: over any grouping of any number of observations, the aggregate is the overall minimum,
maximum and sum. -/
theorem C05_merge_any_grouping (key : Bytes) (hk : key.head? = some 0 ∨ key.head? = some 2)
    (t : MTree (Nat × Nat × Nat))
    (h : ∀ x ∈ t.leaves, x.1 < 2 ^ 64 ∧ x.2.1 < 2 ^ 64 ∧ x.2.2 < 2 ^ 64) :
    ∃ m M, (t.leaves.map (·.1)).min? = some m ∧ (t.leaves.map (·.2.1)).max? = some M
      ∧ mergeEval key (t.map fun x => tripletPack x.1 x.2.1 x.2.2)
          = .ok (tripletPack m M ((t.leaves.map (·.2.2)).sum % 2 ^ 64)) := by
  cases key with
  | nil => simp at hk
  | cons t0 ks =>
    have ht : t0 = etRrset ∨ t0 = etRdata := by simpa [etRrset, etRdata] using hk
    obtain ⟨m, M, h1, h2, _, _, h3⟩ := mergeEval_triplets ks ht t h
    exact ⟨m, M, h1, h2, h3⟩

example : mergeEval [0, 0]
    (.node (.leaf (tripletPack 5 9 2)) (.node (.leaf (tripletPack 3 4 1)) (.leaf (tripletPack 8 30 7))))
    = .ok (tripletPack 3 30 10) := by decide +kernel

/-- C05: two groupings of the same observations in any two orders give the same bytes. -/
theorem C05_merge_order_independent (key : Bytes) (hk : key.head? = some 0 ∨ key.head? = some 2)
    (t u : MTree (Nat × Nat × Nat)) (hp : t.leaves.Perm u.leaves)
    (h : ∀ x ∈ t.leaves, x.1 < 2 ^ 64 ∧ x.2.1 < 2 ^ 64 ∧ x.2.2 < 2 ^ 64) :
    mergeEval key (t.map fun x => tripletPack x.1 x.2.1 x.2.2)
      = mergeEval key (u.map fun x => tripletPack x.1 x.2.1 x.2.2) := by
  obtain ⟨m, M, h1, h2, h3⟩ := C05_merge_any_grouping key hk t h
  obtain ⟨m', M', h1', h2', h3'⟩ :=
    C05_merge_any_grouping key hk u (fun x hx => h x (hp.mem_iff.mpr hx))
  have e1 : m = m' := by
    have := min?_perm (hp.map (·.1)); rw [h1, h1'] at this; simpa using this
  have e2 : M = M' := by
    have := max?_perm (hp.map (·.2.1)); rw [h2, h2'] at this; simpa using this
  have e3 := (hp.map (·.2.2)).sum_nat
  rw [h3, h3', e1, e2, e3]

example : mergeEval [2] (.node (.node (.leaf (tripletPack 5 9 2)) (.leaf (tripletPack 3 4 1)))
      (.leaf (tripletPack 8 30 7)))
    = mergeEval [2] (.node (.leaf (tripletPack 8 30 7))
      (.node (.leaf (tripletPack 3 4 1)) (.leaf (tripletPack 5 9 2)))) := by decide +kernel

/-- C06: the merged time range, for any grouping and order: empty if any input is the legacy empty
value, else the smallest range covering all of them. -/
theorem C06_merge_time_range (t : MTree (Option (Nat × Nat)))
    (h : ∀ p, some p ∈ t.leaves → p.1 < 2 ^ 64 ∧ p.2 < 2 ^ 64) :
    (none ∈ t.leaves → mergeEval [254]
        (t.map rangeValue) = .ok [])
    ∧ (none ∉ t.leaves → ∃ m M,
        mergeEval [254] (t.map rangeValue)
          = .ok (pairPack m M)
        ∧ (∀ p, some p ∈ t.leaves → m ≤ p.1 ∧ p.2 ≤ M)
        ∧ (∃ p, some p ∈ t.leaves ∧ p.1 = m) ∧ (∃ p, some p ∈ t.leaves ∧ p.2 = M)) := by
  obtain ⟨h1, h2⟩ := mergeEval_ranges t h
  change mergeEval [254] _ = _ at h1
  constructor
  · intro hn; rw [h1, if_pos hn]
  · intro hn
    obtain ⟨m, M, a1, a2, _, _⟩ := h2 hn
    refine ⟨m, M, by rw [h1, if_neg hn, a1, a2]; rfl, ?_, ?_, ?_⟩
    · intro p hp
      rw [List.min?_eq_some_iff] at a1
      rw [List.max?_eq_some_iff] at a2
      exact ⟨a1.2 _ (List.mem_filterMap.mpr ⟨some p, hp, rfl⟩),
        a2.2 _ (List.mem_filterMap.mpr ⟨some p, hp, rfl⟩)⟩
    · rw [List.min?_eq_some_iff] at a1
      obtain ⟨x, hx, hx'⟩ := List.mem_filterMap.mp a1.1
      cases x with
      | none => simp at hx'
      | some p => exact ⟨p, hx, by simpa using hx'⟩
    · rw [List.max?_eq_some_iff] at a2
      obtain ⟨x, hx, hx'⟩ := List.mem_filterMap.mp a2.1
      cases x with
      | none => simp at hx'
      | some p => exact ⟨p, hx, by simpa using hx'⟩

example : mergeEval [254] (.node (.leaf (pairPack 5 90)) (.leaf (pairPack 3 40)))
    = .ok (pairPack 3 90) := by decide +kernel
example : mergeEval [254] (.node (.leaf (pairPack 5 90)) (.node (.leaf []) (.leaf (pairPack 3 40))))
    = .ok [] := by decide +kernel

/-- C06: the merged version of a known entry kind, for any grouping and order: empty if any input is
empty, else the lowest version. -/
theorem C06_merge_version (vt : UInt8) (hv : vt.toNat ≤ 3) (t : MTree (Option Nat))
    (h : ∀ p, some p ∈ t.leaves → p < 2 ^ 32) :
    (none ∈ t.leaves → mergeEval [255, vt]
        (t.map versionValue) = .ok [])
    ∧ (none ∉ t.leaves → ∃ m,
        mergeEval [255, vt] (t.map versionValue)
          = .ok (varintEncode32 m)
        ∧ some m ∈ t.leaves ∧ ∀ p, some p ∈ t.leaves → m ≤ p) := by
  obtain ⟨h1, h2⟩ := mergeEval_versions hv t h
  change mergeEval [255, vt] _ = _ at h1
  constructor
  · intro hn; rw [h1, if_pos hn]
  · intro hn
    obtain ⟨m, a1, _⟩ := h2 hn
    refine ⟨m, by rw [h1, if_neg hn, a1]; rfl, ?_, ?_⟩
    · rw [List.min?_eq_some_iff] at a1
      simpa using a1.1
    · intro p hp
      rw [List.min?_eq_some_iff] at a1
      exact a1.2 p (by simpa using hp)

example : mergeEval [255, 1] (.node (.leaf [3]) (.node (.leaf [1]) (.leaf [2]))) = .ok [1] := by
  decide +kernel

/-- C06: a version of an unknown entry kind, a source-info entry, and any key the merge function
does not know merge to the empty value. -/
theorem C06_merge_unknown (key v0 v1 : Bytes)
    (h : (∃ vt : UInt8, key = [255, vt] ∧ 3 < vt.toNat)
      ∨ (∃ t ks, key = t :: ks ∧ 3 < t.toNat ∧ t.toNat ≠ 254 ∧ t.toNat ≠ 255)) :
    mergeFunc key v0 v1 = .ok [] := by
  have hne : ∀ t : UInt8, 3 < t.toNat → ¬ (t = etRrset ∨ t = etRdata)
      ∧ ¬ (t = etRrsetNameFwd ∨ t = etRdataNameRev) := by
    intro t ht
    constructor <;> · rintro (h | h) <;> (subst h; revert ht; decide)
  rcases h with ⟨vt, rfl, hv⟩ | ⟨t, ks, rfl, h1, h2, h3⟩
  · have := hne vt hv
    have h4 : ¬ (vt = etRrset ∨ vt = etRrsetNameFwd ∨ vt = etRdata ∨ vt = etRdataNameRev) := by
      grind
    simp only [mergeFunc, mergeVersion, h4, if_false]
    have e1 : ¬ ((255 : UInt8) = etRrset ∨ (255 : UInt8) = etRdata) := by decide
    have e2 : ¬ ((255 : UInt8) = etRrsetNameFwd ∨ (255 : UInt8) = etRdataNameRev) := by decide
    simp [e1, e2, etVersion]
  · have := hne t h1
    have h4 : t ≠ etTimeRange := by rintro rfl; revert h2; decide
    have h5 : t ≠ etVersion := by rintro rfl; revert h3; decide
    simp only [mergeFunc, this.1, this.2, h4, h5, if_false, and_false]
    split <;> rfl

example : mergeFunc [255, 9] [1] [2] = .ok [] ∧ mergeFunc [253] [65] [66] = .ok [] := by
  decide +kernel

end Verif.Props
