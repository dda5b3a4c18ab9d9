import Verif.Lemmas.Triplet
import Verif.Model.Merge
import Verif.Spec.MergeTree

/-! Helper lemmas about merging triples, pairs and versions. -/

namespace Verif
open Spec

/-- Evaluate a grouping with the merge function for one key (any way `mtbl`'s merger may call
`dnstable_merge_func`, `/repo/dnstable/merge.c:183`). -/
def mergeEval (key : Bytes) : MTree Bytes → Out Bytes
  | .leaf v => .ok v
  | .node l r => do
    let a ← mergeEval key l
    let b ← mergeEval key r
    mergeFunc key a b

/-- The value of a time-range entry, or the legacy empty value
(`/repo/man/dnstable-encoding.5.txt`, `/repo/dnstable/merge.c:212-228`). -/
def rangeValue : Option (Nat × Nat) → Bytes
  | none => []
  | some p => pairPack p.1 p.2

/-- The value of a version entry, or the legacy empty value
(`/repo/man/dnstable-encoding.5.txt`, `/repo/dnstable/merge.c:229-267`). -/
def versionValue : Option Nat → Bytes
  | none => []
  | some v => varintEncode32 v

theorem mergeTriplets_pack {a b c a' b' c' : Nat} (ha : a < 2 ^ 64) (hb : b < 2 ^ 64)
    (hc : c < 2 ^ 64) (ha' : a' < 2 ^ 64) (hb' : b' < 2 ^ 64) (hc' : c' < 2 ^ 64) :
    mergeTriplets (tripletPack a b c) (tripletPack a' b' c')
      = .ok (tripletPack (min a a') (max b b') ((c + c') % 2 ^ 64)) := by
  unfold mergeTriplets
  have h1 := tripletPack_ne_nil a b c
  have h2 := tripletPack_ne_nil a' b' c'
  simp only [tripletUnpack_pack ha hb hc, tripletUnpack_pack ha' hb' hc', Out.orAbort, Out.ok_bind]
  have e1 : (if a < a' then a else a') = min a a' := by grind
  have e2 : (if b > b' then b else b') = max b b' := by grind
  simp [h1, h2, e1, e2]

theorem mergeTimeRange_pack {a b a' b' : Nat} (ha : a < 2 ^ 64) (hb : b < 2 ^ 64)
    (ha' : a' < 2 ^ 64) (hb' : b' < 2 ^ 64) :
    mergeTimeRange (pairPack a b) (pairPack a' b') = .ok (pairPack (min a a') (max b b')) := by
  unfold mergeTimeRange
  have h1 := pairPack_ne_nil a b
  have h2 := pairPack_ne_nil a' b'
  simp only [pairUnpack_pack ha hb, pairUnpack_pack ha' hb', Out.orAbort, Out.ok_bind]
  have e1 : (if a < a' then a else a') = min a a' := by grind
  have e2 : (if b > b' then b else b') = max b b' := by grind
  simp [h1, h2, e1, e2]

theorem encode32_ne_nil {v : Nat} (h : v < 2 ^ 32) : varintEncode32 v ≠ [] := by
  rw [encode32_eq_leb h]; exact leb_ne_nil v

theorem decode32_encode32 {v : Nat} (h : v < 2 ^ 32) :
    varintDecode32 (varintEncode32 v) = .ok ((varintEncode32 v).length, v) := by
  rw [encode32_eq_leb h]
  have := decode32_leb h []
  simpa using this

theorem mergeVersion_pack {vt : UInt8} {x y : Nat} (hv : vt.toNat ≤ 3)
    (hx : x < 2 ^ 32) (hy : y < 2 ^ 32) :
    mergeVersion vt (varintEncode32 x) (varintEncode32 y) = .ok (varintEncode32 (min x y)) := by
  unfold mergeVersion
  have h1 := encode32_ne_nil hx
  have h2 := encode32_ne_nil hy
  have hvt : vt = etRrset ∨ vt = etRrsetNameFwd ∨ vt = etRdata ∨ vt = etRdataNameRev := by
    have : vt.toNat = 0 ∨ vt.toNat = 1 ∨ vt.toNat = 2 ∨ vt.toNat = 3 := by omega
    simpa [etRrset, etRrsetNameFwd, etRdata, etRdataNameRev, ← UInt8.toNat_inj] using this
  have e1 : (if x < y then x else y) = min x y := by grind
  simp [h1, h2, hvt, decode32_encode32 hx, decode32_encode32 hy, e1]

theorem min?_append_some {l r : List Nat} {a b : Nat} (hl : l.min? = some a) (hr : r.min? = some b) :
    (l ++ r).min? = some (min a b) := by
  rw [List.min?_eq_some_iff] at *
  grind

theorem max?_append_some {l r : List Nat} {a b : Nat} (hl : l.max? = some a) (hr : r.max? = some b) :
    (l ++ r).max? = some (max a b) := by
  rw [List.max?_eq_some_iff] at *
  grind

/-- The evaluation of any grouping of packed triples. -/
theorem mergeEval_triplets {t0 : UInt8} (ks : Bytes) (h0 : t0 = etRrset ∨ t0 = etRdata)
    (t : MTree (Nat × Nat × Nat))
    (h : ∀ x ∈ t.leaves, x.1 < 2 ^ 64 ∧ x.2.1 < 2 ^ 64 ∧ x.2.2 < 2 ^ 64) :
    ∃ m M, (t.leaves.map (·.1)).min? = some m ∧ (t.leaves.map (·.2.1)).max? = some M
      ∧ m < 2 ^ 64 ∧ M < 2 ^ 64
      ∧ mergeEval (t0 :: ks) (t.map fun x => tripletPack x.1 x.2.1 x.2.2)
          = .ok (tripletPack m M ((t.leaves.map (·.2.2)).sum % 2 ^ 64)) := by
  induction t with
  | leaf x =>
    obtain ⟨a, b, c⟩ := x
    have := h (a, b, c) (by simp [MTree.leaves])
    refine ⟨a, b, by simp [MTree.leaves], by simp [MTree.leaves], this.1, this.2.1, ?_⟩
    simp [MTree.leaves, MTree.map, mergeEval, Nat.mod_eq_of_lt this.2.2]
  | node l r ihl ihr =>
    obtain ⟨m, M, h1, h2, h3, h4, h5⟩ := ihl (fun x hx => h x (by simp [MTree.leaves, hx]))
    obtain ⟨m', M', h1', h2', h3', h4', h5'⟩ := ihr (fun x hx => h x (by simp [MTree.leaves, hx]))
    refine ⟨min m m', max M M', ?_, ?_, by omega, by omega, ?_⟩
    · simp only [MTree.leaves, List.map_append]; exact min?_append_some h1 h1'
    · simp only [MTree.leaves, List.map_append]; exact max?_append_some h2 h2'
    · simp only [MTree.map, mergeEval, h5, h5', Out.ok_bind, mergeFunc, h0, if_true]
      rw [mergeTriplets_pack h3 h4 (Nat.mod_lt _ (by decide)) h3' h4' (Nat.mod_lt _ (by decide))]
      simp [MTree.leaves, Nat.add_mod]

/-- The evaluation of any grouping of time ranges (`none` = legacy empty value). -/
theorem mergeEval_ranges (t : MTree (Option (Nat × Nat)))
    (h : ∀ p, some p ∈ t.leaves → p.1 < 2 ^ 64 ∧ p.2 < 2 ^ 64) :
    mergeEval [etTimeRange] (t.map rangeValue)
      = .ok (if none ∈ t.leaves then [] else
          pairPack ((t.leaves.filterMap (·.map Prod.fst)).min?.getD 0)
                   ((t.leaves.filterMap (·.map Prod.snd)).max?.getD 0))
    ∧ (none ∉ t.leaves → ∃ m M, (t.leaves.filterMap (·.map Prod.fst)).min? = some m
        ∧ (t.leaves.filterMap (·.map Prod.snd)).max? = some M ∧ m < 2 ^ 64 ∧ M < 2 ^ 64) := by
  induction t with
  | leaf x =>
    cases x with
    | none => simp [MTree.leaves, MTree.map, mergeEval, rangeValue]
    | some p =>
      have := h p (by simp [MTree.leaves])
      simp [MTree.leaves, MTree.map, mergeEval, this, rangeValue]
  | node l r ihl ihr =>
    obtain ⟨h1, h2⟩ := ihl (fun x hx => h x (by simp [MTree.leaves, hx]))
    obtain ⟨h1', h2'⟩ := ihr (fun x hx => h x (by simp [MTree.leaves, hx]))
    have hf : ∀ a b, mergeFunc [etTimeRange] a b = mergeTimeRange a b := by
      intro a b; simp [mergeFunc, etTimeRange, etRrset, etRdata, etRrsetNameFwd, etRdataNameRev]
    by_cases hl : none ∈ l.leaves
    · refine ⟨?_, by simp [MTree.leaves, hl]⟩
      simp [MTree.leaves, MTree.map, mergeEval, h1, h1', hl, hf, mergeTimeRange]
    · by_cases hr : none ∈ r.leaves
      · refine ⟨?_, by simp [MTree.leaves, hr]⟩
        simp [MTree.leaves, MTree.map, mergeEval, h1, h1', hr, hf, mergeTimeRange]
      · obtain ⟨m, M, a1, a2, a3, a4⟩ := h2 hl
        obtain ⟨m', M', b1, b2, b3, b4⟩ := h2' hr
        have c1 := min?_append_some a1 b1
        have c2 := max?_append_some a2 b2
        refine ⟨?_, fun _ => ⟨min m m', max M M', ?_, ?_, by omega, by omega⟩⟩
        · simp only [MTree.leaves, MTree.map, mergeEval, h1, h1', hl, hr, hf, if_false, Out.ok_bind,
            List.mem_append, or_self, List.filterMap_append, a1, a2, b1, b2, c1, c2, Option.getD_some]
          rw [mergeTimeRange_pack a3 a4 b3 b4]
        · simpa [MTree.leaves] using c1
        · simpa [MTree.leaves] using c2

/-- The evaluation of any grouping of versions (`none` = legacy empty value). -/
theorem mergeEval_versions {vt : UInt8} (hv : vt.toNat ≤ 3) (t : MTree (Option Nat))
    (h : ∀ p, some p ∈ t.leaves → p < 2 ^ 32) :
    mergeEval [etVersion, vt] (t.map versionValue)
      = .ok (if none ∈ t.leaves then [] else
          varintEncode32 ((t.leaves.filterMap id).min?.getD 0))
    ∧ (none ∉ t.leaves → ∃ m, (t.leaves.filterMap id).min? = some m ∧ m < 2 ^ 32) := by
  induction t with
  | leaf x =>
    cases x with
    | none => simp [MTree.leaves, MTree.map, mergeEval, versionValue]
    | some p =>
      have := h p (by simp [MTree.leaves])
      simp [MTree.leaves, MTree.map, mergeEval, this, versionValue]
  | node l r ihl ihr =>
    obtain ⟨h1, h2⟩ := ihl (fun x hx => h x (by simp [MTree.leaves, hx]))
    obtain ⟨h1', h2'⟩ := ihr (fun x hx => h x (by simp [MTree.leaves, hx]))
    have hf : ∀ a b, mergeFunc [etVersion, vt] a b = mergeVersion vt a b := by
      intro a b; simp [mergeFunc, etVersion, etTimeRange, etRrset, etRdata, etRrsetNameFwd, etRdataNameRev]
    by_cases hl : none ∈ l.leaves
    · refine ⟨?_, by simp [MTree.leaves, hl]⟩
      simp [MTree.leaves, MTree.map, mergeEval, h1, h1', hl, hf, mergeVersion]
    · by_cases hr : none ∈ r.leaves
      · refine ⟨?_, by simp [MTree.leaves, hr]⟩
        simp [MTree.leaves, MTree.map, mergeEval, h1, h1', hr, hf, mergeVersion]
      · obtain ⟨m, a1, a3⟩ := h2 hl
        obtain ⟨m', b1, b3⟩ := h2' hr
        have c1 := min?_append_some a1 b1
        refine ⟨?_, fun _ => ⟨min m m', ?_, by omega⟩⟩
        · simp only [MTree.leaves, MTree.map, mergeEval, h1, h1', hl, hr, hf, if_false, Out.ok_bind,
            List.mem_append, or_self, List.filterMap_append, a1, b1, c1, Option.getD_some]
          rw [mergeVersion_pack hv a3 b3]
        · simpa [MTree.leaves] using c1

theorem min?_perm {l r : List Nat} (h : l.Perm r) : l.min? = r.min? := by
  have key : ∀ {l r : List Nat} {m : Nat}, l.Perm r → l.min? = some m → r.min? = some m := by
    intro l r m h hm
    rw [List.min?_eq_some_iff] at *
    exact ⟨h.mem_iff.mp hm.1, fun b hb => hm.2 b (h.mem_iff.mpr hb)⟩
  cases hl : l.min? with
  | some m => exact (key h hl).symm
  | none =>
    cases hr : r.min? with
    | none => rfl
    | some m => rw [key h.symm hr] at hl; cases hl

theorem max?_perm {l r : List Nat} (h : l.Perm r) : l.max? = r.max? := by
  have key : ∀ {l r : List Nat} {m : Nat}, l.Perm r → l.max? = some m → r.max? = some m := by
    intro l r m h hm
    rw [List.max?_eq_some_iff] at *
    exact ⟨h.mem_iff.mp hm.1, fun b hb => hm.2 b (h.mem_iff.mpr hb)⟩
  cases hl : l.max? with
  | some m => exact (key h hl).symm
  | none =>
    cases hr : r.max? with
    | none => rfl
    | some m => rw [key h.symm hr] at hl; cases hl

end Verif
