import Verif.Lemmas.UnionWrite
import Verif.Lemmas.Merge

/-! Helper lemmas: merging type sets. -/

namespace Verif
open Spec

theorem mem_winBlock {p : Nat → Bool} {w : Nat} {b : Block} (h : b ∈ winBlock p w) :
    b.window = UInt8.ofNat w ∧ b.bits = trim (winBytes p w) ∧ b.bits ≠ [] := by
  unfold winBlock at h
  split at h
  · cases h
  · rename_i hne
    simp at h; subst h; exact ⟨rfl, rfl, hne⟩

theorem mem_canonBlocks {p : Nat → Bool} {n : Nat} {b : Block} :
    b ∈ canonBlocks p n ↔ ∃ w, w < n ∧ b ∈ winBlock p w := by
  induction n with
  | zero => simp [canonBlocks]
  | succ n ih =>
    rw [canonBlocks_succ, List.mem_append, ih]
    constructor
    · rintro (⟨w, hw, hb⟩ | hb)
      · exact ⟨w, by omega, hb⟩
      · exact ⟨n, by omega, hb⟩
    · rintro ⟨w, hw, hb⟩
      by_cases h : w = n
      · subst h; exact .inr hb
      · exact .inl ⟨w, by omega, hb⟩

theorem u8_ofNat_toNat {w : Nat} (h : w < 256) : (UInt8.ofNat w).toNat = w := by
  rw [u8_toNat_ofNat]; exact Nat.mod_eq_of_lt h

theorem canonBlocks_windows (p : Nat → Bool) {n : Nat} (hn : n ≤ 256) :
    ((canonBlocks p n).map (·.window.toNat)).Pairwise (· < ·) := by
  induction n with
  | zero => simp [canonBlocks]
  | succ n ih =>
    rw [canonBlocks_succ, List.map_append, List.pairwise_append]
    refine ⟨ih (by omega), ?_, ?_⟩
    · unfold winBlock; split <;> simp
    · intro x hx y hy
      obtain ⟨b, hb, rfl⟩ := List.mem_map.mp hx
      obtain ⟨c, hc, rfl⟩ := List.mem_map.mp hy
      obtain ⟨w, hw, hb⟩ := mem_canonBlocks.mp hb
      rw [(mem_winBlock hb).1, (mem_winBlock hc).1, u8_ofNat_toNat (by omega),
        u8_ofNat_toNat (by omega)]
      exact hw

theorem canonBlocks_lengths (p : Nat → Bool) (n : Nat) :
    ∀ b ∈ canonBlocks p n, 1 ≤ b.bits.length ∧ b.bits.length ≤ 32 := by
  intro b hb
  obtain ⟨w, _, hb⟩ := mem_canonBlocks.mp hb
  obtain ⟨_, h2, h3⟩ := mem_winBlock hb
  refine ⟨List.length_pos_iff.mpr h3, ?_⟩
  rw [h2]
  have := trim_length_le (winBytes p w)
  rw [winBytes_length] at this
  exact this

theorem canonBlocks_has (p : Nat → Bool) (t : Nat) (ht : t < 65536) :
    (TypeSet.bitmap (canonBlocks p 256)).has t = p t := by
  rw [Bool.eq_iff_iff]
  simp only [TypeSet.has, List.any_eq_true, Bool.and_eq_true, beq_iff_eq]
  have hp : p t = bitSet (trim (winBytes p (t / 256))) (t % 256) := by
    rw [trim_bitSet, bitSet_winBytes _ _ _ (by omega)]
    congr 1; omega
  constructor
  · rintro ⟨b, hb, hw, ho⟩
    obtain ⟨w, hwlt, hb⟩ := mem_canonBlocks.mp hb
    obtain ⟨h1, h2, _⟩ := mem_winBlock hb
    rw [h1, u8_ofNat_toNat hwlt] at hw
    subst hw
    rw [hp, ← h2]; exact ho
  · intro h
    rw [hp] at h
    refine ⟨⟨UInt8.ofNat (t / 256), trim (winBytes p (t / 256))⟩, ?_, ?_, h⟩
    · rw [mem_canonBlocks]
      refine ⟨t / 256, by omega, ?_⟩
      unfold winBlock
      rw [if_neg]
      · simp
      · intro he; rw [he] at h; simp [bitSet] at h
    · simp only; exact u8_ofNat_toNat (by omega)

theorem canonBlocks_ne_nil {p : Nat → Bool} {t : Nat} (ht : t < 65536) (hp : p t = true) :
    canonBlocks p 256 ≠ [] := by
  intro h
  have := canonBlocks_has p t ht
  rw [h, hp] at this
  simp [TypeSet.has] at this

theorem canonBlocks_wf {p : Nat → Bool} (h : ∃ t, t < 65536 ∧ p t = true) :
    (TypeSet.bitmap (canonBlocks p 256)).wf := by
  obtain ⟨t, ht, hp⟩ := h
  exact ⟨canonBlocks_ne_nil ht hp, canonBlocks_windows p (by omega), canonBlocks_lengths p 256⟩

/-! ## Merging sorted lists -/

theorem smd_spec (m : Nat) : ∀ xs ys : List Nat, xs.Pairwise (· < ·) → ys.Pairwise (· < ·) →
    (sortedMergeDedup m xs ys).Pairwise (· < ·)
    ∧ (∀ t ∈ sortedMergeDedup m xs ys, t ∈ xs ∨ t ∈ ys)
    ∧ ((sortedMergeDedup m xs ys).length < m → ∀ t, t ∈ xs ∨ t ∈ ys → t ∈ sortedMergeDedup m xs ys) := by
  induction m with
  | zero => intro xs ys _ _; simp [sortedMergeDedup]
  | succ m ih =>
    intro xs ys hx hy
    match xs, ys, hx, hy with
    | [], [], _, _ => simp [sortedMergeDedup]
    | [], y :: ys, hx, hy =>
      simp only [sortedMergeDedup]
      rw [List.pairwise_cons] at hy
      obtain ⟨h1, h2, h3⟩ := ih [] ys hx hy.2
      refine ⟨?_, ?_, ?_⟩
      · rw [List.pairwise_cons]
        exact ⟨fun t ht => by rcases h2 t ht with h | h; simp at h; exact hy.1 t h, h1⟩
      · intro t ht; have := h2 t; grind
      · intro hl t ht
        have := h3 (by simpa using hl) t
        grind
    | x :: xs, [], hx, hy =>
      simp only [sortedMergeDedup]
      rw [List.pairwise_cons] at hx
      obtain ⟨h1, h2, h3⟩ := ih xs [] hx.2 hy
      refine ⟨?_, ?_, ?_⟩
      · rw [List.pairwise_cons]
        exact ⟨fun t ht => by rcases h2 t ht with h | h; exact hx.1 t h; simp at h, h1⟩
      · intro t ht; have := h2 t; grind
      · intro hl t ht
        have := h3 (by simpa using hl) t
        grind
    | x :: xs, y :: ys, hx, hy =>
      simp only [sortedMergeDedup]
      have hx' := hx; have hy' := hy
      rw [List.pairwise_cons] at hx' hy'
      split
      · obtain ⟨h1, h2, h3⟩ := ih (x :: xs) ys hx hy'.2
        refine ⟨?_, ?_, ?_⟩
        · rw [List.pairwise_cons]
          refine ⟨fun t ht => ?_, h1⟩
          rcases h2 t ht with h | h
          · rcases List.mem_cons.mp h with rfl | h
            · omega
            · have := hx'.1 t h; omega
          · exact hy'.1 t h
        · intro t ht; have := h2 t; grind
        · intro hl t ht
          have := h3 (by simpa using hl) t
          grind
      · split
        · obtain ⟨h1, h2, h3⟩ := ih xs (y :: ys) hx'.2 hy
          refine ⟨?_, ?_, ?_⟩
          · rw [List.pairwise_cons]
            refine ⟨fun t ht => ?_, h1⟩
            rcases h2 t ht with h | h
            · exact hx'.1 t h
            · rcases List.mem_cons.mp h with rfl | h
              · omega
              · have := hy'.1 t h; omega
          · intro t ht; have := h2 t; grind
          · intro hl t ht
            have := h3 (by simpa using hl) t
            grind
        · have hxy : x = y := by omega
          obtain ⟨h1, h2, h3⟩ := ih xs ys hx'.2 hy'.2
          refine ⟨?_, ?_, ?_⟩
          · rw [List.pairwise_cons]
            refine ⟨fun t ht => ?_, h1⟩
            rcases h2 t ht with h | h
            · have := hx'.1 t h; omega
            · exact hy'.1 t h
          · intro t ht; have := h2 t; grind
          · intro hl t ht
            have := h3 (by simpa using hl) t
            grind

theorem smd_sortedTypes {p q : Nat → Bool} (h : ∃ t, t < 65536 ∧ p t = false ∧ q t = false) :
    sortedMergeDedup maxRrtypes (sortedTypes p) (sortedTypes q) = sortedTypes fun t => p t || q t := by
  obtain ⟨h1, h2, h3⟩ := smd_spec maxRrtypes (sortedTypes p) (sortedTypes q) (sortedTypes_sorted p)
    (sortedTypes_sorted q)
  generalize sortedMergeDedup maxRrtypes (sortedTypes p) (sortedTypes q) = L at *
  have hsub : ∀ t ∈ L, t ∈ sortedTypes fun t => p t || q t := by
    intro t ht
    have := h2 t ht
    simp only [mem_sortedTypes, Bool.or_eq_true] at this ⊢
    grind
  have hLf : L = (sortedTypes fun t => p t || q t).filter (fun t => decide (t ∈ L)) := by
    apply pairwise_lt_ext h1 (List.Pairwise.filter _ (sortedTypes_sorted _))
    intro t
    simp only [List.mem_filter, decide_eq_true_eq]
    exact ⟨fun ht => ⟨hsub t ht, ht⟩, fun ht => ht.2⟩
  apply pairwise_lt_ext h1 (sortedTypes_sorted _)
  intro t
  refine ⟨hsub t, fun ht => ?_⟩
  by_cases hm : t ∈ L
  · exact hm
  · have hlt : L.length < (sortedTypes fun t => p t || q t).length := by
      rw [hLf, List.length_filter_lt_length_iff_exists]
      exact ⟨t, ht, by simpa using hm⟩
    have hle : (sortedTypes fun t => p t || q t).length ≤ maxRrtypes := by
      apply sortedTypes_length_lt
      obtain ⟨t, a, b, c⟩ := h
      exact ⟨t, a, by simp [b, c]⟩
    apply h3 (by omega)
    simp only [mem_sortedTypes, Bool.or_eq_true] at ht ⊢
    grind

theorem bytes_ne_nil {s : TypeSet} (h : s.wf) : s.bytes ≠ [] := by
  cases s with
  | byte a => simp [TypeSet.bytes]
  | word lo hi => simp [TypeSet.bytes]
  | bitmap bl =>
    have := bitmap_bytes_length h.1 (fun b hb => (h.2.2 b hb).1)
    intro he
    simp only [TypeSet.bytes] at he
    rw [he] at this; simp at this

/-- Two different non-empty values: whichever branch is taken, both are unpacked. -/
theorem mergeBitmaps_unpack {v0 v1 : Bytes} {l r : List Nat} (h0 : v0 ≠ []) (h1 : v1 ≠ [])
    (hne : v0 ≠ v1) (hl : unionUnpack v0 = some l) (hr : unionUnpack v1 = some r) :
    mergeBitmaps v0 v1 = bmWrite (sortedMergeDedup maxRrtypes l r) := by
  unfold mergeBitmaps
  have h0' : v0.length ≠ 0 := by simpa using h0
  have h1' : v1.length ≠ 0 := by simpa using h1
  rw [if_neg (by simp only [not_or]; exact ⟨h0', h1'⟩), if_neg hne]
  split
  · simp only [unionUnpack, Option.some.injEq] at hl hr
    subst hl hr; rfl
  · simp only [unionUnpack, Option.some.injEq] at hl hr
    subst hl hr; rfl
  · simp only [hl, hr, Out.ofOption, Out.ok_bind]

/-- The exact behaviour of merging two different well-formed sets. -/
theorem mergeBitmaps_wf {s0 s1 : TypeSet} (h0 : s0.wf) (h1 : s1.wf) (hne : s0.bytes ≠ s1.bytes)
    (hx : ∃ t, t < 65536 ∧ s0.has t = false ∧ s1.has t = false) :
    mergeBitmaps s0.bytes s1.bytes =
      if (canon fun t => s0.has t || s1.has t).length < bmBound
      then .ok (canon fun t => s0.has t || s1.has t) else .fault .abort := by
  obtain ⟨t, ht, a, b⟩ := hx
  rw [mergeBitmaps_unpack (bytes_ne_nil h0) (bytes_ne_nil h1) hne (unionUnpack_wf h0 ⟨t, ht, a⟩)
    (unionUnpack_wf h1 ⟨t, ht, b⟩), smd_sortedTypes ⟨t, ht, a, b⟩,
    bmWrite_eq (sortedTypes_sorted _) (fun t ht => (mem_sortedTypes.mp ht).1)]
  have : canon (fun x => (sortedTypes fun t => s0.has t || s1.has t).contains x)
      = canon fun t => s0.has t || s1.has t := by
    apply canon_congr
    intro t ht
    rw [Bool.eq_iff_iff]
    simp only [List.contains_eq_mem, decide_eq_true_eq, mem_sortedTypes]
    exact ⟨fun h => h.2, fun h => ⟨ht, h⟩⟩
  rw [this]

end Verif
