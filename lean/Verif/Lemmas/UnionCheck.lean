import Verif.Lemmas.UnionMerge

/-! Helper lemmas: testing type sets, canonical values. -/

namespace Verif
open Spec

theorem unionCheckBlocks_cons (want byte bit : Nat) (w n : UInt8) (rest : Bytes) :
    unionCheckBlocks want byte bit (w :: n :: rest) =
      if rest.length < n.toNat then .ok true
      else if w.toNat ≠ want then unionCheckBlocks want byte bit (rest.drop n.toNat)
      else if byte > n.toNat then .ok false
      else byteAt rest byte >>= fun b => .ok (b.toNat.testBit (7 - bit)) := by
  conv => lhs; rw [unionCheckBlocks]

theorem unionCheckBlocks_block (want byte bit : Nat) (b : Block) (tail : Bytes)
    (hb : b.bits.length ≤ 255) :
    unionCheckBlocks want byte bit (b.bytes ++ tail) =
      if b.window.toNat ≠ want then unionCheckBlocks want byte bit tail
      else if byte > b.bits.length then .ok false
      else byteAt (b.bits ++ tail) byte >>= fun x => .ok (x.toNat.testBit (7 - bit)) := by
  simp only [Block.bytes, List.cons_append]
  rw [unionCheckBlocks_cons]
  rw [u8_ofNat_length hb, if_neg (by simp only [List.length_append]; omega)]
  have hdrop : (b.bits ++ tail).drop b.bits.length = tail := by simp
  rw [hdrop]

theorem has_bitmap_cons (b : Block) (bl : List Block) (t : Nat) :
    (TypeSet.bitmap (b :: bl)).has t
      = ((b.window.toNat == t / 256 && bitSet b.bits (t % 256)) || (TypeSet.bitmap bl).has t) := by
  simp [TypeSet.has]

theorem has_false_of_windows {bl : List Block} {t : Nat}
    (h : ∀ b ∈ bl, b.window.toNat ≠ t / 256) : (TypeSet.bitmap bl).has t = false := by
  simp only [TypeSet.has, List.any_eq_false, Bool.and_eq_true, beq_iff_eq, not_and]
  intro b hb hw
  exact absurd hw (h b hb)

theorem unionCheckBlocks_spec (bl : List Block) (t : Nat)
    (hw : (bl.map (·.window.toNat)).Pairwise (· < ·)) (hl : ∀ b ∈ bl, b.bits.length ≤ 255) :
    ((TypeSet.bitmap bl).has t = true →
      unionCheckBlocks (t / 256) (t % 256 / 8) (t % 256 % 8) (bl.flatMap Block.bytes) = .ok true)
    ∧ ((∀ b ∈ bl, b.window.toNat = t / 256 → b.bits.length ≠ t % 256 / 8) →
      unionCheckBlocks (t / 256) (t % 256 / 8) (t % 256 % 8) (bl.flatMap Block.bytes)
        = .ok ((TypeSet.bitmap bl).has t)) := by
  induction bl with
  | nil => simp [TypeSet.has, unionCheckBlocks]
  | cons b bl ih =>
    simp only [List.map_cons, List.pairwise_cons] at hw
    obtain ⟨ih1, ih2⟩ := ih hw.2 (fun b hb => hl b (by simp [hb]))
    have hb := hl b (by simp)
    simp only [List.flatMap_cons]
    rw [unionCheckBlocks_block _ _ _ _ _ hb, has_bitmap_cons]
    by_cases hwin : b.window.toNat = t / 256
    · have htail : (TypeSet.bitmap bl).has t = false := by
        apply has_false_of_windows
        intro c hc
        have := hw.1 _ (List.mem_map.mpr ⟨c, hc, rfl⟩)
        omega
      rw [if_neg (by simpa using hwin), htail]
      simp only [hwin, beq_self_eq_true, Bool.true_and, Bool.or_false]
      have hin : t % 256 / 8 < b.bits.length →
          (if t % 256 / 8 > b.bits.length then Out.ok false
           else byteAt (b.bits ++ bl.flatMap Block.bytes) (t % 256 / 8) >>= fun x =>
            .ok (x.toNat.testBit (7 - t % 256 % 8))) = .ok (bitSet b.bits (t % 256)) := by
        intro hlt
        rw [if_neg (by omega), byteAt_lt (by simp only [List.length_append]; omega),
          List.getElem_append_left hlt]
        simp only [Out.ok_bind, bitSet]
        rw [List.getElem?_eq_getElem hlt]
      constructor
      · intro hs
        have := bitSet_lt hs
        rw [hin (by omega), hs]
      · intro hne
        have hne' := hne b (by simp) hwin
        by_cases hlt : t % 256 / 8 < b.bits.length
        · exact hin hlt
        · rw [if_pos (by omega)]
          cases hbs : bitSet b.bits (t % 256) with
          | false => rfl
          | true => have := bitSet_lt hbs; omega
    · rw [if_pos (by simpa using hwin)]
      have hf : (b.window.toNat == t / 256) = false := by simpa using hwin
      rw [hf]
      simp only [Bool.false_and, Bool.false_or]
      exact ⟨ih1, fun h => ih2 (fun c hc => h c (by simp [hc]))⟩

/-! ## Canonical values -/

/-- The set whose wire form is `writerValue p` (helper). -/
def writerSet (p : Nat → Bool) : TypeSet :=
  match sortedTypes p with
  | [t] => if t < 256 then .byte (UInt8.ofNat t) else .word (UInt8.ofNat (t % 256)) (UInt8.ofNat (t / 256))
  | _ => .bitmap (canonBlocks p 256)

theorem writerSet_bytes (p : Nat → Bool) : (writerSet p).bytes = writerValue p := by
  unfold writerSet writerValue
  generalize sortedTypes p = L
  match L with
  | [] => rfl
  | [t] => simp only; split <;> rfl
  | _ :: _ :: _ => rfl

theorem writerSet_wf {p : Nat → Bool} (h : ∃ t, t < 65536 ∧ p t = true) : (writerSet p).wf := by
  unfold writerSet
  split
  · split <;> trivial
  · exact canonBlocks_wf h

theorem writerSet_has (p : Nat → Bool) (t : Nat) (ht : t < 65536) : (writerSet p).has t = p t := by
  unfold writerSet
  split
  · rename_i x hx
    have hm : ∀ y, y ∈ sortedTypes p ↔ y = x := by intro y; rw [hx]; simp
    have hxlt := (mem_sortedTypes.mp ((hm x).mpr rfl)).1
    have hpt : p t = true ↔ t = x := by
      rw [← hm, mem_sortedTypes]; simp [ht]
    rw [Bool.eq_iff_iff, hpt]
    split
    · simp only [TypeSet.has, beq_iff_eq]; rw [u8_ofNat_toNat (by omega)]
    · simp only [TypeSet.has, beq_iff_eq]
      rw [u8_ofNat_toNat (by omega), u8_ofNat_toNat (by omega)]; omega
  · exact canonBlocks_has p t ht

theorem has_of_bytes_eq {s0 s1 : TypeSet} (h0 : s0.wf) (h1 : s1.wf)
    (hx : ∃ t, t < 65536 ∧ s0.has t = false ∧ s1.has t = false)
    (he : s0.bytes = s1.bytes) (t : Nat) : s0.has t = s1.has t := by
  obtain ⟨u, hu, a, b⟩ := hx
  have e0 := unionUnpack_wf h0 ⟨u, hu, a⟩
  have e1 := unionUnpack_wf h1 ⟨u, hu, b⟩
  rw [he, e1] at e0
  have e0 := Option.some.inj e0
  by_cases ht : t < 65536
  · have : t ∈ sortedTypes (fun t => s1.has t) ↔ t ∈ sortedTypes (fun t => s0.has t) := by rw [e0]
    simp only [mem_sortedTypes, ht, true_and] at this
    rw [Bool.eq_iff_iff]; exact this.symm
  · cases h2 : s0.has t with
    | true => exact absurd (has_lt h2) ht
    | false =>
      cases h3 : s1.has t with
      | true => exact absurd (has_lt h3) ht
      | false => rfl

theorem sortedTypes_congr {p q : Nat → Bool} (h : ∀ t, t < 65536 → p t = q t) :
    sortedTypes p = sortedTypes q := by
  apply pairwise_lt_ext (sortedTypes_sorted p) (sortedTypes_sorted q)
  intro t; rw [mem_sortedTypes, mem_sortedTypes]
  constructor <;> · rintro ⟨a, b⟩; exact ⟨a, by simpa [h t a] using b⟩

theorem writerValue_congr {p q : Nat → Bool} (h : ∀ t, t < 65536 → p t = q t) :
    writerValue p = writerValue q := by
  unfold writerValue
  rw [sortedTypes_congr h, canon_congr h]

theorem writerValue_ne_nil {p : Nat → Bool} (h : ∃ t, t < 65536 ∧ p t = true) :
    writerValue p ≠ [] := by
  rw [← writerSet_bytes]; exact bytes_ne_nil (writerSet_wf h)

/-- Merging two canonical values. -/
theorem mergeBitmaps_writer {p q : Nat → Bool} (hp : ∃ t, t < 65536 ∧ p t = true)
    (hq : ∃ t, t < 65536 ∧ q t = true) (hx : ∃ t, t < 65536 ∧ p t = false ∧ q t = false) :
    mergeBitmaps (writerValue p) (writerValue q) =
      if writerValue p = writerValue q ∨ (writerValue fun t => p t || q t).length < bmBound
      then .ok (writerValue fun t => p t || q t) else .fault .abort := by
  obtain ⟨u, hu, a, b⟩ := hx
  have hx' : ∃ t, t < 65536 ∧ (writerSet p).has t = false ∧ (writerSet q).has t = false :=
    ⟨u, hu, by rw [writerSet_has p u hu]; exact a, by rw [writerSet_has q u hu]; exact b⟩
  by_cases he : writerValue p = writerValue q
  · rw [if_pos (.inl he)]
    have heq : ∀ t, t < 65536 → p t = (p t || q t) := by
      intro t ht
      have := has_of_bytes_eq (writerSet_wf hp) (writerSet_wf hq) hx'
        (by rw [writerSet_bytes, writerSet_bytes]; exact he) t
      rw [writerSet_has p t ht, writerSet_has q t ht] at this
      rw [← this]; simp
    have h1 : writerValue p = writerValue fun t => p t || q t := writerValue_congr heq
    unfold mergeBitmaps
    have hn' : (writerValue p).length ≠ 0 := by simpa using writerValue_ne_nil hp
    rw [← he, if_neg (by omega), if_pos rfl, h1]
  · have hne : (writerSet p).bytes ≠ (writerSet q).bytes := by
      rw [writerSet_bytes, writerSet_bytes]; exact he
    have h2 : writerValue (fun t => p t || q t) = canon (fun t => p t || q t) := by
      unfold writerValue
      split
      · rename_i x hx
        -- a single type in the union means both sides are that type
        exfalso
        have hm : ∀ y, y < 65536 → ((p y || q y) = true ↔ y = x) := by
          intro y hy
          have : y ∈ sortedTypes (fun t => p t || q t) ↔ y = x := by rw [hx]; simp
          rw [mem_sortedTypes] at this
          simpa [hy] using this
        obtain ⟨y, hy, hpy⟩ := hp
        obtain ⟨z, hz, hqz⟩ := hq
        have e1 := (hm y hy).mp (by simp [hpy])
        have e2 := (hm z hz).mp (by simp [hqz])
        apply he
        apply writerValue_congr
        intro t ht
        by_cases h : t = x
        · subst h; subst e1; subst e2; rw [hpy, hqz]
        · have := (not_congr (hm t ht)).mpr h
          simp only [Bool.or_eq_true, not_or, Bool.not_eq_true] at this
          rw [this.1, this.2]
      · rfl
    have h3 : canon (fun t => (writerSet p).has t || (writerSet q).has t)
        = canon (fun t => p t || q t) := by
      apply canon_congr
      intro t ht
      rw [writerSet_has p t ht, writerSet_has q t ht]
    have := mergeBitmaps_wf (writerSet_wf hp) (writerSet_wf hq) hne hx'
    rw [writerSet_bytes, writerSet_bytes, h3] at this
    rw [this, h2]
    simp [he]

theorem flatMap_bytes_length_le {bl : List Block} (h : ∀ b ∈ bl, b.bits.length ≤ 32) :
    (bl.flatMap Block.bytes).length ≤ 34 * bl.length := by
  induction bl with
  | nil => simp
  | cons b bl ih =>
    have := ih (fun b hb => h b (by simp [hb]))
    have := h b (by simp)
    simp only [List.flatMap_cons, List.length_append, List.length_cons, Block.bytes]; omega

/-- A set whose types lie in few windows has a small canonical bitmap. -/
theorem canon_length_windows {p : Nat → Bool} {ws : List Nat}
    (h : ∀ t, t < 65536 → p t = true → t / 256 ∈ ws) : (canon p).length ≤ 34 * ws.length := by
  unfold canon
  have h1 := flatMap_bytes_length_le (fun b hb => (canonBlocks_lengths p 256 b hb).2)
  have h2 : ((canonBlocks p 256).map (·.window.toNat)).length ≤ ws.length := by
    apply List.Nodup.length_le_of_subset
    · exact (canonBlocks_windows p (by omega)).imp (fun h => Nat.ne_of_lt h)
    · intro x hx
      obtain ⟨b, hb, rfl⟩ := List.mem_map.mp hx
      obtain ⟨w, hw, hb⟩ := mem_canonBlocks.mp hb
      obtain ⟨e1, e2, e3⟩ := mem_winBlock hb
      rw [e1, u8_ofNat_toNat hw]
      -- some bit of the window is set
      apply Classical.byContradiction
      intro hn
      apply e3
      rw [e2]
      apply trim_nil_of_zero
      intro b hb
      have : winBytes p w = List.replicate 32 0 := by
        apply winBytes_empty
        intro t ht
        cases hp : p t with
        | false => rfl
        | true =>
          have := h t (by omega) hp
          rw [ht] at this; exact absurd this hn
      rw [this] at hb
      exact List.eq_of_mem_replicate hb
  rw [List.length_map] at h2
  omega

end Verif
