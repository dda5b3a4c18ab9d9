import Verif.Model.Union
import Verif.Spec.Union
import Verif.Lemmas.Varint

/-! Helper lemmas: reading type bitmaps. -/

namespace Verif
open Spec

theorem window_or (w o : Nat) (h : o < 256) : (w <<< 8) ||| o = 256 * w + o := by
  rw [Nat.shiftLeft_eq, Nat.mul_comm]
  exact (Nat.two_pow_add_eq_or_of_lt (i := 8) h w).symm

theorem mem_unpackByte {w : UInt8} {i : Nat} {a : UInt8} (hi : i < 32) (t : Nat) :
    t ∈ unpackByte w i a ↔ ∃ j, j < 8 ∧ a.toNat.testBit (7 - j) = true ∧ t = 256 * w.toNat + (8 * i + j) := by
  unfold unpackByte
  simp only [List.mem_filterMap, List.mem_range]
  constructor
  · rintro ⟨j, hj, h⟩
    by_cases hb : a.toNat.testBit (7 - j) = true
    · rw [if_pos hb] at h
      refine ⟨j, hj, hb, ?_⟩
      rw [window_or _ _ (by omega)] at h
      simpa using h.symm
    · rw [if_neg hb] at h; cases h
  · rintro ⟨j, hj, hb, rfl⟩
    exact ⟨j, hj, by rw [if_pos hb, window_or _ _ (by omega)]⟩

theorem unpackByte_sorted {w : UInt8} {i : Nat} {a : UInt8} (hi : i < 32) :
    (unpackByte w i a).Pairwise (· < ·) := by
  unfold unpackByte
  rw [List.pairwise_filterMap]
  have := List.pairwise_lt_range (n := 8)
  refine (List.pairwise_lt_range (n := 8)).imp_of_mem ?_
  intro x y hx hy hxy b hb b' hb'
  simp only [List.mem_range] at hx hy
  by_cases h1 : a.toNat.testBit (7 - x) = true
  · by_cases h2 : a.toNat.testBit (7 - y) = true
    · rw [if_pos h1, window_or _ _ (by omega)] at hb
      rw [if_pos h2, window_or _ _ (by omega)] at hb'
      simp at hb hb'; omega
    · rw [if_neg h2] at hb'; cases hb'
  · rw [if_neg h1] at hb; cases hb

theorem bitSet_cons_lt (a : UInt8) (as : Bytes) (o : Nat) (h : o < 8) :
    bitSet (a :: as) o = a.toNat.testBit (7 - o) := by
  simp [bitSet, Nat.div_eq_of_lt h, Nat.mod_eq_of_lt h]

theorem bitSet_cons_ge (a : UInt8) (as : Bytes) (o : Nat) (h : 8 ≤ o) :
    bitSet (a :: as) o = bitSet as (o - 8) := by
  have h1 : o / 8 = (o - 8) / 8 + 1 := by omega
  have h2 : o % 8 = (o - 8) % 8 := by omega
  simp [bitSet, h1, h2]

theorem mem_unpackBlock {w : UInt8} {bs : Bytes} : ∀ {i : Nat}, i + bs.length ≤ 32 → ∀ t,
    (t ∈ unpackBlock w i bs ↔ ∃ o, t = 256 * w.toNat + (8 * i + o) ∧ bitSet bs o = true) := by
  induction bs with
  | nil => intro i _ t; simp [unpackBlock, bitSet]
  | cons a as ih =>
    intro i hi t
    simp only [List.length_cons] at hi
    simp only [unpackBlock, List.mem_append]
    rw [mem_unpackByte (by omega), ih (by omega)]
    constructor
    · rintro (⟨j, hj, hb, rfl⟩ | ⟨o, rfl, hb⟩)
      · exact ⟨j, rfl, by rw [bitSet_cons_lt _ _ _ hj]; exact hb⟩
      · refine ⟨o + 8, by omega, ?_⟩
        rw [bitSet_cons_ge _ _ _ (by omega)]; simpa using hb
    · rintro ⟨o, rfl, hb⟩
      by_cases ho : o < 8
      · left; rw [bitSet_cons_lt _ _ _ ho] at hb; exact ⟨o, ho, hb, rfl⟩
      · right; rw [bitSet_cons_ge _ _ _ (by omega)] at hb
        exact ⟨o - 8, by omega, hb⟩

theorem bitSet_lt {bs : Bytes} {o : Nat} (h : bitSet bs o = true) : o < 8 * bs.length := by
  unfold bitSet at h
  split at h
  · rename_i b hb
    have := (List.getElem?_eq_some_iff.mp hb).1
    omega
  · cases h

theorem unpackBlock_sorted {w : UInt8} {bs : Bytes} : ∀ {i : Nat}, i + bs.length ≤ 32 →
    (unpackBlock w i bs).Pairwise (· < ·) := by
  induction bs with
  | nil => intro i _; simp [unpackBlock]
  | cons a as ih =>
    intro i hi
    simp only [List.length_cons] at hi
    simp only [unpackBlock]
    rw [List.pairwise_append]
    refine ⟨unpackByte_sorted (by omega), ih (by omega), ?_⟩
    intro x hx y hy
    rw [mem_unpackByte (by omega)] at hx
    rw [mem_unpackBlock (by omega)] at hy
    obtain ⟨j, hj, _, rfl⟩ := hx
    obtain ⟨o, rfl, _⟩ := hy
    omega

theorem unpackBlocks_cons (prev : Option UInt8) (w n : UInt8) (rest : Bytes) :
    unpackBlocks prev (w :: n :: rest) =
      if windowBad prev w = true then none
      else if n.toNat < 1 ∨ rest.length < n.toNat then none
      else (unpackBlocks (some w) (rest.drop n.toNat)).bind fun tl =>
        some (unpackBlock w 0 (rest.take n.toNat) ++ tl) := by
  rw [unpackBlocks.eq_def]
  rfl

/-- All types of a list of blocks, in order. -/
def blocksTypes (bl : List Block) : List Nat := bl.flatMap fun b => unpackBlock b.window 0 b.bits

theorem u8_ofNat_length {l : Bytes} (h : l.length ≤ 255) : (UInt8.ofNat l.length).toNat = l.length := by
  rw [u8_toNat_ofNat]; exact Nat.mod_eq_of_lt (by omega)

theorem unpackBlocks_encode (bl : List Block) : ∀ (prev : Option UInt8),
    (∀ p, prev = some p → ∀ b ∈ bl, p.toNat < b.window.toNat) →
    (bl.map (·.window.toNat)).Pairwise (· < ·) →
    (∀ b ∈ bl, 1 ≤ b.bits.length ∧ b.bits.length ≤ 255) →
    unpackBlocks prev (bl.flatMap Block.bytes) = some (blocksTypes bl) := by
  induction bl with
  | nil => intro prev _ _ _; simp [unpackBlocks, blocksTypes]
  | cons b bl ih =>
    intro prev h1 h2 h3
    have hb := h3 b (by simp)
    simp only [List.flatMap_cons, Block.bytes, List.cons_append]
    rw [unpackBlocks_cons, u8_ofNat_length hb.2]
    rw [if_neg, if_neg]
    · have hdrop : (b.bits ++ bl.flatMap Block.bytes).drop b.bits.length = bl.flatMap Block.bytes := by
        simp
      have htake : (b.bits ++ bl.flatMap Block.bytes).take b.bits.length = b.bits := by simp
      change ((unpackBlocks (some b.window)
        ((b.bits ++ bl.flatMap Block.bytes).drop b.bits.length)).bind _) = _
      rw [hdrop, htake, ih]
      · simp [blocksTypes]
      · intro p hp b' hb'
        cases hp
        simp only [List.map_cons, List.pairwise_cons] at h2
        exact h2.1 _ (List.mem_map.mpr ⟨b', hb', rfl⟩)
      · simp only [List.map_cons, List.pairwise_cons] at h2; exact h2.2
      · intro b' hb'; exact h3 b' (by simp [hb'])
    · change ¬ (b.bits.length < 1 ∨ (b.bits ++ bl.flatMap Block.bytes).length < b.bits.length)
      simp only [List.length_append]; omega
    · cases prev with
      | none => simp [windowBad]
      | some p => have := h1 p rfl b (by simp); simp [windowBad]; omega

theorem unpackBlocks_some {prev : Option UInt8} {map : Bytes} {l : List Nat}
    (h : unpackBlocks prev map = some l) :
    ∃ bl : List Block, map = bl.flatMap Block.bytes
      ∧ (∀ p, prev = some p → ∀ b ∈ bl, p.toNat < b.window.toNat)
      ∧ (bl.map (·.window.toNat)).Pairwise (· < ·)
      ∧ (∀ b ∈ bl, 1 ≤ b.bits.length ∧ b.bits.length ≤ 255)
      ∧ l = blocksTypes bl := by
  induction hn : map.length using Nat.strongRecOn generalizing prev map l with
  | _ n ih =>
    match map, h with
    | [], h =>
      simp [unpackBlocks] at h; subst h
      exact ⟨[], by simp, by simp, by simp, by simp, by simp [blocksTypes]⟩
    | [_], h => simp [unpackBlocks] at h
    | w :: k :: rest, h =>
      rw [unpackBlocks_cons] at h
      by_cases hp : windowBad prev w = true
      · rw [if_pos hp] at h; cases h
      rw [if_neg hp] at h
      by_cases hk : k.toNat < 1 ∨ rest.length < k.toNat
      · rw [if_pos hk] at h; cases h
      rw [if_neg hk] at h
      cases hr : unpackBlocks (some w) (rest.drop k.toNat) with
      | none => rw [hr] at h; cases h
      | some tl =>
        rw [hr] at h
        simp only [Option.bind_some, Option.some.injEq] at h
        obtain ⟨bl, e1, e2, e3, e4, e5⟩ := ih (rest.drop k.toNat).length
          (by simp at hn ⊢; omega) hr rfl
        have hkl : (rest.take k.toNat).length = k.toNat := by simp; omega
        have hk256 : k.toNat < 256 := k.toNat_lt
        refine ⟨⟨w, rest.take k.toNat⟩ :: bl, ?_, ?_, ?_, ?_, ?_⟩
        · simp only [List.flatMap_cons, Block.bytes, hkl, ← e1, List.cons_append,
            List.take_append_drop]
          congr; simp
        · intro p hpp b hb
          subst hpp
          simp [windowBad] at hp
          rcases List.mem_cons.mp hb with rfl | hb
          · exact hp
          · have := e2 w rfl b hb
            omega
        · simp only [List.map_cons, List.pairwise_cons]
          refine ⟨?_, e3⟩
          intro x hx
          obtain ⟨b, hb, rfl⟩ := List.mem_map.mp hx
          exact e2 w rfl b hb
        · intro b hb
          rcases List.mem_cons.mp hb with rfl | hb
          · simp only [hkl]; omega
          · exact e4 b hb
        · rw [← h, e5]; simp [blocksTypes]

theorem mem_blocksTypes {bl : List Block} (h : ∀ b ∈ bl, b.bits.length ≤ 32) (t : Nat) :
    t ∈ blocksTypes bl ↔ (TypeSet.bitmap bl).has t = true := by
  simp only [blocksTypes, List.mem_flatMap, TypeSet.has, List.any_eq_true, Bool.and_eq_true,
    beq_iff_eq]
  constructor
  · rintro ⟨b, hb, ht⟩
    have := h b hb
    rw [mem_unpackBlock (by omega)] at ht
    obtain ⟨o, rfl, ho⟩ := ht
    have := bitSet_lt ho
    refine ⟨b, hb, by omega, ?_⟩
    have : (256 * b.window.toNat + (8 * 0 + o)) % 256 = o := by omega
    rw [this]; exact ho
  · rintro ⟨b, hb, hw, ho⟩
    refine ⟨b, hb, ?_⟩
    have := h b hb
    rw [mem_unpackBlock (by omega)]
    exact ⟨t % 256, by omega, ho⟩

theorem blocksTypes_sorted {bl : List Block} (hw : (bl.map (·.window.toNat)).Pairwise (· < ·))
    (h : ∀ b ∈ bl, b.bits.length ≤ 32) : (blocksTypes bl).Pairwise (· < ·) := by
  unfold blocksTypes
  rw [List.pairwise_flatMap]
  refine ⟨fun b hb => unpackBlock_sorted (by have := h b hb; omega), ?_⟩
  rw [List.pairwise_map] at hw
  refine hw.imp_of_mem ?_
  intro a b ha hb hab x hx y hy
  have := h a ha
  have := h b hb
  rw [mem_unpackBlock (by omega)] at hx hy
  obtain ⟨o, rfl, ho⟩ := hx
  obtain ⟨o', rfl, ho'⟩ := hy
  have := bitSet_lt ho
  omega

theorem bitmap_bytes_length {bl : List Block} (h0 : bl ≠ [])
    (h : ∀ b ∈ bl, 1 ≤ b.bits.length) : 3 ≤ (bl.flatMap Block.bytes).length := by
  cases bl with
  | nil => exact absurd rfl h0
  | cons b bl =>
    have := h b (by simp)
    simp [Block.bytes]; omega

theorem has_lt {s : TypeSet} {t : Nat} (h : s.has t = true) : t < 65536 := by
  cases s with
  | byte a => simp [TypeSet.has] at h; have := a.toNat_lt; omega
  | word lo hi => simp [TypeSet.has] at h; have := lo.toNat_lt; have := hi.toNat_lt; omega
  | bitmap bl =>
    simp only [TypeSet.has, List.any_eq_true, Bool.and_eq_true, beq_iff_eq] at h
    obtain ⟨b, _, hw, _⟩ := h
    have := b.window.toNat_lt
    omega

theorem pairwise_lt_ext {l r : List Nat} (hl : l.Pairwise (· < ·)) (hr : r.Pairwise (· < ·))
    (h : ∀ t, t ∈ l ↔ t ∈ r) : l = r := by
  have hp : l.Perm r := by
    rw [List.perm_ext_iff_of_nodup]
    · exact h
    · exact hl.imp (fun h => Nat.ne_of_lt h)
    · exact hr.imp (fun h => Nat.ne_of_lt h)
  exact hp.eq_of_pairwise (fun a b _ _ h1 h2 => by omega) hl hr

theorem sortedTypes_sorted (p : Nat → Bool) : (sortedTypes p).Pairwise (· < ·) := by
  unfold sortedTypes
  exact List.Pairwise.filter _ List.pairwise_lt_range

theorem mem_sortedTypes {p : Nat → Bool} {t : Nat} : t ∈ sortedTypes p ↔ t < 65536 ∧ p t = true := by
  unfold sortedTypes
  rw [List.mem_filter, List.mem_range]

theorem sorted_eq_sortedTypes {l : List Nat} {p : Nat → Bool} (hl : l.Pairwise (· < ·))
    (h : ∀ t, t ∈ l ↔ t < 65536 ∧ p t = true) : l = sortedTypes p :=
  pairwise_lt_ext hl (sortedTypes_sorted p) (fun t => by rw [h, mem_sortedTypes])

theorem sortedTypes_length_lt {p : Nat → Bool} (h : ∃ t, t < 65536 ∧ p t = false) :
    (sortedTypes p).length ≤ maxRrtypes := by
  obtain ⟨t, ht, hp⟩ := h
  have h1 : (sortedTypes p).length < (List.range 65536).length := by
    unfold sortedTypes
    rw [List.length_filter_lt_length_iff_exists]
    exact ⟨t, by simpa using ht, by simp [hp]⟩
  simp only [List.length_range] at h1
  unfold maxRrtypes; omega

/-- Reading a well-formed set. -/
theorem unionUnpack_wf {s : TypeSet} (h : s.wf) (hne : ∃ t, t < 65536 ∧ s.has t = false) :
    unionUnpack s.bytes = some (sortedTypes fun t => s.has t) := by
  cases s with
  | byte a =>
    have : [a.toNat] = sortedTypes fun t => (TypeSet.byte a).has t := by
      apply sorted_eq_sortedTypes (by simp)
      intro t; have := a.toNat_lt; simp [TypeSet.has]; omega
    simp only [TypeSet.bytes, unionUnpack, this]
  | word lo hi =>
    have : [le16 lo hi] = sortedTypes fun t => (TypeSet.word lo hi).has t := by
      apply sorted_eq_sortedTypes (by simp)
      intro t; have := lo.toNat_lt; have := hi.toNat_lt; simp [TypeSet.has, le16]; omega
    simp only [TypeSet.bytes, unionUnpack, this]
  | bitmap bl =>
    obtain ⟨h1, h2, h3⟩ := h
    have hlen := bitmap_bytes_length h1 (fun b hb => (h3 b hb).1)
    have hb : blocksTypes bl = sortedTypes fun t => (TypeSet.bitmap bl).has t := by
      apply sorted_eq_sortedTypes (blocksTypes_sorted h2 (fun b hb => (h3 b hb).2))
      intro t
      rw [mem_blocksTypes (fun b hb => (h3 b hb).2)]
      exact ⟨fun h => ⟨has_lt h, h⟩, fun h => h.2⟩
    have he := unpackBlocks_encode bl none (by simp) h2 (fun b hb => by have := h3 b hb; omega)
    simp only [TypeSet.bytes]
    unfold unionUnpack
    split
    · rename_i e; rw [e] at hlen; simp at hlen
    · rename_i e; rw [e] at hlen; simp at hlen
    · rename_i e; rw [e] at hlen; simp at hlen
    · rw [he, hb]
      simp only [Option.bind_eq_bind, Option.bind_some]
      rw [if_pos (sortedTypes_length_lt hne)]

/-- A set of all 65536 types does not fit the unpacked form. -/
theorem unionUnpack_full {s : TypeSet} (h : s.wf) (hf : ∀ t, t < 65536 → s.has t = true) : unionUnpack s.bytes = none := by
  cases s with
  | byte a =>
    have h0 := hf 0 (by omega)
    have h1 := hf 1 (by omega)
    simp only [TypeSet.has, beq_iff_eq] at h0 h1
    omega
  | word lo hi =>
    have h0 := hf 0 (by omega)
    have h1 := hf 1 (by omega)
    simp only [TypeSet.has, beq_iff_eq] at h0 h1
    omega
  | bitmap bl =>
    obtain ⟨h1, h2, h3⟩ := h
    have hlen := bitmap_bytes_length h1 (fun b hb => (h3 b hb).1)
    have hb : blocksTypes bl = sortedTypes fun t => (TypeSet.bitmap bl).has t := by
      apply sorted_eq_sortedTypes (blocksTypes_sorted h2 (fun b hb => (h3 b hb).2))
      intro t
      rw [mem_blocksTypes (fun b hb => (h3 b hb).2)]
      exact ⟨fun h => ⟨has_lt h, h⟩, fun h => h.2⟩
    have he := unpackBlocks_encode bl none (by simp) h2 (fun b hb => by have := h3 b hb; omega)
    have hl : ¬ (sortedTypes fun t => (TypeSet.bitmap bl).has t).length ≤ maxRrtypes := by
      unfold sortedTypes
      rw [List.filter_eq_self.2 (fun t ht => hf t (List.mem_range.1 ht)), List.length_range]
      unfold maxRrtypes; omega
    simp only [TypeSet.bytes]
    unfold unionUnpack
    split
    · rename_i e; rw [e] at hlen; simp at hlen
    · rename_i e; rw [e] at hlen; simp at hlen
    · rename_i e; rw [e] at hlen; simp at hlen
    · rw [he, hb]
      simp only [Option.bind_eq_bind, Option.bind_some]
      rw [if_neg hl]

end Verif
