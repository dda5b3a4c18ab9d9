import Verif.Lemmas.Union

/-! Helper lemmas: writing type bitmaps, and the canonical bitmap. -/

namespace Verif
open Spec

/-! ## Bytes from bits -/

theorem byteOf_or (f : Nat → Bool) (k : Nat) (hk : k < 8) :
    byteOf f ||| UInt8.ofNat (0x80 >>> k) = byteOf (fun j => f j || j == k) := by
  unfold byteOf
  have : ∀ (a b c d e g h i : Bool) (k : Fin 8),
      UInt8.ofNat (a.toNat * 128 + b.toNat * 64 + c.toNat * 32 + d.toNat * 16
        + e.toNat * 8 + g.toNat * 4 + h.toNat * 2 + i.toNat) ||| UInt8.ofNat (0x80 >>> k.val)
      = UInt8.ofNat ((a || 0 == k.val).toNat * 128 + (b || 1 == k.val).toNat * 64
        + (c || 2 == k.val).toNat * 32 + (d || 3 == k.val).toNat * 16
        + (e || 4 == k.val).toNat * 8 + (g || 5 == k.val).toNat * 4
        + (h || 6 == k.val).toNat * 2 + (i || 7 == k.val).toNat) := by decide +kernel
  exact this _ _ _ _ _ _ _ _ ⟨k, hk⟩

theorem byteOf_testBit (f : Nat → Bool) (k : Nat) (hk : k < 8) :
    (byteOf f).toNat.testBit (7 - k) = f k := by
  unfold byteOf
  have : ∀ (a b c d e g h i : Bool),
      let n := (UInt8.ofNat (a.toNat * 128 + b.toNat * 64 + c.toNat * 32 + d.toNat * 16
        + e.toNat * 8 + g.toNat * 4 + h.toNat * 2 + i.toNat)).toNat
      n.testBit 7 = a ∧ n.testBit 6 = b ∧ n.testBit 5 = c ∧ n.testBit 4 = d
      ∧ n.testBit 3 = e ∧ n.testBit 2 = g ∧ n.testBit 1 = h ∧ n.testBit 0 = i := by decide +kernel
  obtain ⟨h0, h1, h2, h3, h4, h5, h6, h7⟩ :=
    this (f 0) (f 1) (f 2) (f 3) (f 4) (f 5) (f 6) (f 7)
  have hc : k = 0 ∨ k = 1 ∨ k = 2 ∨ k = 3 ∨ k = 4 ∨ k = 5 ∨ k = 6 ∨ k = 7 := by omega
  rcases hc with rfl | rfl | rfl | rfl | rfl | rfl | rfl | rfl <;> assumption

theorem byteOf_false (f : Nat → Bool) (h : ∀ j, j < 8 → f j = false) : byteOf f = 0 := by
  unfold byteOf
  simp [h 0 (by omega), h 1 (by omega), h 2 (by omega), h 3 (by omega), h 4 (by omega),
    h 5 (by omega), h 6 (by omega), h 7 (by omega)]

theorem byteOf_ne_zero (f : Nat → Bool) (k : Nat) (hk : k < 8) (h : f k = true) : byteOf f ≠ 0 := by
  intro h0
  have := byteOf_testBit f k hk
  rw [h0, h] at this
  simp at this

theorem byteOf_congr {f g : Nat → Bool} (h : ∀ j, j < 8 → f j = g j) : byteOf f = byteOf g := by
  unfold byteOf
  rw [h 0 (by omega), h 1 (by omega), h 2 (by omega), h 3 (by omega), h 4 (by omega),
    h 5 (by omega), h 6 (by omega), h 7 (by omega)]

/-! ## Windows -/

theorem winBytes_length (p : Nat → Bool) (w : Nat) : (winBytes p w).length = 32 := by
  simp [winBytes]

theorem winBytes_congr {p q : Nat → Bool} {w : Nat}
    (h : ∀ t, t / 256 = w → p t = q t) : winBytes p w = winBytes q w := by
  unfold winBytes
  apply List.map_congr_left
  intro i hi
  simp only [List.mem_range] at hi
  apply byteOf_congr
  intro j hj
  exact h _ (by omega)

theorem winBytes_empty {p : Nat → Bool} {w : Nat} (h : ∀ t, t / 256 = w → p t = false) :
    winBytes p w = List.replicate 32 0 := by
  rw [List.eq_replicate_iff]
  refine ⟨winBytes_length p w, ?_⟩
  intro b hb
  simp only [winBytes, List.mem_map, List.mem_range] at hb
  obtain ⟨i, hi, rfl⟩ := hb
  exact byteOf_false _ (fun j hj => h _ (by omega))

theorem winBytes_getElem (p : Nat → Bool) (w i : Nat) (hi : i < (winBytes p w).length) :
    (winBytes p w)[i] = byteOf fun j => p (256 * w + 8 * i + j) := by
  simp [winBytes]

theorem winBytes_insert (p : Nat → Bool) (t : Nat) :
    (winBytes p (t / 256)).modify (t % 256 / 8) (fun b => b ||| UInt8.ofNat (0x80 >>> (t % 256 % 8)))
      = winBytes (fun x => p x || x == t) (t / 256) := by
  apply List.ext_getElem
  · simp [winBytes_length]
  · intro i h1 h2
    rw [List.getElem_modify, winBytes_getElem, winBytes_getElem]
    by_cases hi : t % 256 / 8 = i
    · rw [if_pos hi, byteOf_or _ _ (by omega)]
      apply byteOf_congr
      intro j hj
      congr 1
      have : (j = t % 256 % 8) = (256 * (t / 256) + 8 * i + j = t) := by
        apply propext; omega
      rw [Bool.eq_iff_iff]
      simp only [beq_iff_eq]
      rw [this]
    · rw [if_neg hi]
      apply byteOf_congr
      intro j hj
      have : (256 * (t / 256) + 8 * i + j == t) = false := by
        simp only [beq_eq_false_iff_ne, ne_eq]; omega
      simp [this]

/-! ## Trimming -/

theorem trim_eq_take (l : Bytes) : trim l = l.take (trim l).length := by
  induction l with
  | nil => rfl
  | cons a as ih =>
    simp only [trim]
    split
    · simp
    · simp [← ih]

theorem trim_nil_of_zero {l : Bytes} (h : ∀ b ∈ l, b = 0) : trim l = [] := by
  induction l with
  | nil => rfl
  | cons a as ih =>
    simp [trim, ih (fun b hb => h b (by simp [hb])), h a (by simp)]

theorem trim_length {l : Bytes} {i : Nat} (hi : i < l.length) (h1 : l[i] ≠ 0)
    (h2 : ∀ j (hj : j < l.length), i < j → l[j] = 0) : (trim l).length = i + 1 := by
  induction l generalizing i with
  | nil => simp at hi
  | cons a as ih =>
    cases i with
    | zero =>
      have : trim as = [] := trim_nil_of_zero (by
        intro b hb
        obtain ⟨j, hj, rfl⟩ := List.mem_iff_getElem.mp hb
        have := h2 (j + 1) (by simp; omega) (by omega)
        simpa using this)
      simp at h1
      simp [trim, this, h1]
    | succ i =>
      have := ih (i := i) (by simpa using hi) (by simpa using h1) (by
        intro j hj hij
        have := h2 (j + 1) (by simp; omega) (by omega)
        simpa using this)
      have hne : trim as ≠ [] := by intro h; rw [h] at this; simp at this
      simp [trim, hne, this]

theorem trim_bitSet (l : Bytes) (o : Nat) : bitSet (trim l) o = bitSet l o := by
  induction l generalizing o with
  | nil => rfl
  | cons a as ih =>
    simp only [trim]
    split
    · rename_i h
      by_cases ho : o < 8
      · rw [bitSet_cons_lt _ _ _ ho, h.2]; simp [bitSet]
      · rw [bitSet_cons_ge _ _ _ (by omega), ← ih, h.1]; simp [bitSet]
    · by_cases ho : o < 8
      · rw [bitSet_cons_lt _ _ _ ho, bitSet_cons_lt _ _ _ ho]
      · rw [bitSet_cons_ge _ _ _ (by omega), bitSet_cons_ge _ _ _ (by omega), ih]

theorem bitSet_winBytes (p : Nat → Bool) (w o : Nat) (ho : o < 256) :
    bitSet (winBytes p w) o = p (256 * w + o) := by
  unfold bitSet
  have h : o / 8 < (winBytes p w).length := by rw [winBytes_length]; omega
  rw [List.getElem?_eq_getElem h, winBytes_getElem]
  simp only
  rw [byteOf_testBit _ _ (by omega)]
  congr 1; omega

theorem trim_length_le (l : Bytes) : (trim l).length ≤ l.length := by
  rw [trim_eq_take]; simp; omega

/-! ## Canonical blocks -/

/-- The block of window `w`, if any (helper). -/
def winBlock (p : Nat → Bool) (w : Nat) : List Block :=
  if trim (winBytes p w) = [] then [] else [⟨UInt8.ofNat w, trim (winBytes p w)⟩]

theorem canonBlocks_succ (p : Nat → Bool) (n : Nat) :
    canonBlocks p (n + 1) = canonBlocks p n ++ winBlock p n := by
  unfold canonBlocks winBlock
  rw [List.range_succ, List.filterMap_append]
  congr 1
  by_cases h : trim (winBytes p n) = [] <;> simp [h]

theorem canonBlocks_congr {p q : Nat → Bool} {n : Nat} (h : ∀ t, t / 256 < n → p t = q t) :
    canonBlocks p n = canonBlocks q n := by
  induction n with
  | zero => rfl
  | succ n ih =>
    rw [canonBlocks_succ, canonBlocks_succ, ih (fun t ht => h t (by omega))]
    unfold winBlock
    rw [winBytes_congr (fun t ht => h t (by omega))]

theorem winBlock_empty {p : Nat → Bool} {n : Nat} (h : ∀ t, t / 256 = n → p t = false) :
    winBlock p n = [] := by
  unfold winBlock
  rw [if_pos]
  rw [winBytes_empty h]
  exact trim_nil_of_zero (fun b hb => List.eq_of_mem_replicate hb)

theorem canonBlocks_above {p : Nat → Bool} {n m : Nat} (h : ∀ t, n ≤ t / 256 → p t = false)
    (hm : n ≤ m) : canonBlocks p m = canonBlocks p n := by
  induction m with
  | zero => have : n = 0 := by omega
            rw [this]
  | succ m ih =>
    by_cases hn : n = m + 1
    · rw [hn]
    · rw [canonBlocks_succ, winBlock_empty (fun t ht => h t (by omega)), List.append_nil]
      exact ih (by omega)

theorem canonBlocks_length_mono (p : Nat → Bool) {n m : Nat} (h : n ≤ m) :
    ((canonBlocks p n).flatMap Block.bytes).length ≤ ((canonBlocks p m).flatMap Block.bytes).length := by
  induction m with
  | zero => have : n = 0 := by omega
            rw [this]; exact Nat.le_refl _
  | succ m ih =>
    by_cases hn : n = m + 1
    · rw [hn]; exact Nat.le_refl _
    · rw [canonBlocks_succ, List.flatMap_append, List.length_append]
      have := ih (by omega)
      omega

/-- Writer invariant: everything in `p` has been processed. -/
structure BmInv (p : Nat → Bool) (s : BmState) : Prop where
  window : s.window < 256
  bitmap : s.bitmap = winBytes p s.window
  len : s.bitmapLen = (trim (winBytes p s.window)).length
  result : s.result = (canonBlocks p s.window).flatMap Block.bytes
  small : s.result.length < bmBound
  below : ∀ t, p t = true → t / 256 ≤ s.window

theorem bmFlush_inv {p : Nat → Bool} {s : BmState} (h : BmInv p s) :
    bmFlush s = if ((canonBlocks p (s.window + 1)).flatMap Block.bytes).length < bmBound
      then .ok { s with result := (canonBlocks p (s.window + 1)).flatMap Block.bytes, bitmapLen := 0 }
      else .fault .abort := by
  unfold bmFlush
  have hs := canonBlocks_succ p s.window
  by_cases hz : trim (winBytes p s.window) = []
  · have hl : s.bitmapLen = 0 := by rw [h.len, hz]; rfl
    have : winBlock p s.window = [] := by unfold winBlock; rw [if_pos hz]
    rw [this, List.append_nil] at hs
    rw [if_neg (by omega), hs, ← h.result, if_pos h.small]
    cases s; simp at hl ⊢; exact hl
  · have hl : 0 < s.bitmapLen := by rw [h.len]; exact List.length_pos_iff.mpr hz
    have hb : winBlock p s.window = [⟨UInt8.ofNat s.window, trim (winBytes p s.window)⟩] := by
      unfold winBlock; rw [if_neg hz]
    rw [hb] at hs
    have e : (canonBlocks p (s.window + 1)).flatMap Block.bytes
        = s.result ++ [UInt8.ofNat s.window, UInt8.ofNat s.bitmapLen] ++ s.bitmap.take s.bitmapLen := by
      rw [hs, List.flatMap_append, ← h.result, h.bitmap, h.len, ← trim_eq_take]
      simp [Block.bytes]
    have hlen : s.result.length + 2 + s.bitmapLen
        = ((canonBlocks p (s.window + 1)).flatMap Block.bytes).length := by
      rw [hs, List.flatMap_append, ← h.result, h.len]
      simp [Block.bytes]; omega
    rw [if_pos hl, hlen]
    split
    · rw [e]
    · rfl

theorem trim_insert_length {p : Nat → Bool} {t : Nat} (h : ∀ x, p x = true → x < t) :
    (trim (winBytes (fun x => p x || x == t) (t / 256))).length = 1 + t % 256 / 8 := by
  have hi : t % 256 / 8 < (winBytes (fun x => p x || x == t) (t / 256)).length := by
    rw [winBytes_length]; omega
  have := trim_length (l := winBytes (fun x => p x || x == t) (t / 256)) hi (by
      rw [winBytes_getElem]
      apply byteOf_ne_zero _ (t % 256 % 8) (by omega)
      have : 256 * (t / 256) + 8 * (t % 256 / 8) + t % 256 % 8 = t := by omega
      simp only [this, beq_self_eq_true, Bool.or_true]) (by
      intro j hj hij
      rw [winBytes_getElem]
      apply byteOf_false
      intro k hk
      have h1 : p (256 * (t / 256) + 8 * j + k) = false := by
        cases hp : p (256 * (t / 256) + 8 * j + k) with
        | false => rfl
        | true => have := h _ hp; omega
      have h2 : (256 * (t / 256) + 8 * j + k == t) = false := by
        simp only [beq_eq_false_iff_ne, ne_eq]; omega
      simp [h1, h2])
  omega

theorem bmLoop_inv (ts : List Nat) : ∀ (p : Nat → Bool) (s : BmState), BmInv p s →
    ts.Pairwise (· < ·) → (∀ t ∈ ts, t < 65536) → (∀ t ∈ ts, ∀ x, p x = true → x < t) →
    (∀ t ∈ ts, s.window ≤ t / 256) →
    (do let s ← bmLoop s ts
        let s ← bmFlush s
        Out.ok s.result)
      = if (canon fun x => p x || ts.contains x).length < bmBound
        then .ok (canon fun x => p x || ts.contains x) else .fault .abort := by
  induction ts with
  | nil =>
    intro p s h _ _ _ _
    have hw := h.window
    have hc : canon (fun x => p x || ([] : List Nat).contains x)
        = (canonBlocks p (s.window + 1)).flatMap Block.bytes := by
      have : (fun x => p x || ([] : List Nat).contains x) = p := by funext x; simp
      rw [this]
      unfold canon
      rw [canonBlocks_above (n := s.window + 1) (m := 256) _ (by omega)]
      intro t ht
      cases hp : p t with
      | false => rfl
      | true => have := h.below t hp; omega
    rw [hc]
    simp only [bmLoop, Out.ok_bind, bmFlush_inv h]
    split <;> rfl
  | cons t ts ih =>
    intro p s h hsort hlt hgt hwin
    have hw := h.window
    rw [List.pairwise_cons] at hsort
    have ht := hlt t (by simp)
    have hgt' := hgt t (by simp)
    let p' : Nat → Bool := fun x => p x || x == t
    have hpf : (fun x => p x || (t :: ts).contains x) = (fun x => p' x || ts.contains x) := by
      funext x; simp only [p', List.contains_cons, Bool.or_assoc]
    have hp'x : ∀ x, p' x = true → p x = true ∨ x = t := by
      intro x hx; simpa [p'] using hx
    -- after the optional flush
    have key : ∀ s1 : BmState, BmInv p s1 → s1.window = t / 256 →
        BmInv p' { s1 with
          bitmap := s1.bitmap.modify (t % 256 / 8) (fun b => b ||| UInt8.ofNat (0x80 >>> (t % 256 % 8)))
          bitmapLen := 1 + t % 256 / 8 } := by
      intro s1 h1 hw1
      refine ⟨h1.window, ?_, ?_, ?_, h1.small, ?_⟩
      · simp only; rw [h1.bitmap, hw1]; exact winBytes_insert p t
      · simp only; rw [hw1]; exact (trim_insert_length hgt').symm
      · simp only; rw [h1.result]
        congr 1
        apply canonBlocks_congr
        intro x hx
        have : (x == t) = false := by simp only [beq_eq_false_iff_ne, ne_eq]; omega
        simp [p', this]
      · intro x hx
        simp only
        rcases hp'x x hx with hx | rfl
        · exact h1.below x hx
        · omega
    have rest : ∀ s2, BmInv p' s2 → s2.window = t / 256 →
        (do let s ← bmLoop s2 ts
            let s ← bmFlush s
            Out.ok s.result)
        = if (canon fun x => p x || (t :: ts).contains x).length < bmBound
          then .ok (canon fun x => p x || (t :: ts).contains x) else .fault .abort := by
      intro s2 h2 hw2
      rw [hpf]
      apply ih p' s2 h2 hsort.2 (fun x hx => hlt x (by simp [hx]))
      · intro x hx y hy
        have h3 := hsort.1 x hx
        rcases hp'x y hy with hy | rfl
        · have := hgt' y hy; omega
        · exact h3
      · intro x hx
        have h3 := hsort.1 x hx
        omega
    simp only [bmLoop, bmStep]
    by_cases hcur : t / 256 = s.window
    · rw [if_neg (by simpa using hcur)]
      simp only [Out.ok_bind]
      exact rest _ (key s h hcur.symm) hcur.symm
    · have hwlt : s.window < t / 256 := by
        have := hwin t (by simp); omega
      rw [if_pos (by simpa using hcur), bmFlush_inv h]
      have hpre : (canonBlocks (fun x => p x || (t :: ts).contains x) (s.window + 1))
          = canonBlocks p (s.window + 1) := by
        apply canonBlocks_congr
        intro x hx
        have : x ∉ t :: ts := by
          intro hm
          rcases List.mem_cons.mp hm with rfl | hm
          · omega
          · have := hsort.1 x hm; omega
        simp only [List.contains_eq_mem, this, decide_false, Bool.or_false]
      split
      · rename_i hsm
        simp only [Out.ok_bind]
        have hinv : BmInv p
            { s with result := (canonBlocks p (s.window + 1)).flatMap Block.bytes
                     bitmapLen := 0, bitmap := List.replicate 32 0, window := t / 256 } := by
          have hemp : ∀ x, x / 256 = t / 256 → p x = false := by
            intro x hx
            cases hpx : p x with
            | false => rfl
            | true => have := h.below x hpx; omega
          refine ⟨?_, ?_, ?_, ?_, hsm, ?_⟩
          · simp only; omega
          · simp only; rw [winBytes_empty hemp]
          · simp only; rw [winBytes_empty hemp, trim_nil_of_zero]
            · rfl
            · intro b hb; exact List.eq_of_mem_replicate hb
          · simp only
            rw [canonBlocks_above (n := s.window + 1) (m := t / 256) _ (by omega)]
            intro x hx
            cases hpx : p x with
            | false => rfl
            | true => have := h.below x hpx; omega
          · intro x hx; have := h.below x hx; simp only; omega
        exact rest _ (key _ hinv rfl) rfl
      · rename_i hbig
        simp only [Out.fault_bind]
        rw [if_neg]
        have := canonBlocks_length_mono (fun x => p x || (t :: ts).contains x)
          (n := s.window + 1) (m := 256) (by omega)
        rw [hpre] at this
        unfold canon
        omega

theorem bmWrite_eq {ts : List Nat} (h : ts.Pairwise (· < ·)) (h2 : ∀ t ∈ ts, t < 65536) :
    bmWrite ts = if (canon fun x => ts.contains x).length < bmBound
        then .ok (canon fun x => ts.contains x) else .fault .abort := by
  have hinit : BmInv (fun _ => false) .init := by
    have hz : winBytes (fun _ => false) 0 = List.replicate 32 0 := winBytes_empty (fun _ _ => rfl)
    refine ⟨by decide, hz.symm, ?_, rfl, by decide, by simp⟩
    show 0 = (trim (winBytes (fun _ => false) 0)).length
    rw [hz, trim_nil_of_zero (fun b hb => List.eq_of_mem_replicate hb)]; rfl
  have := bmLoop_inv ts (fun _ => false) .init hinit h h2 (by simp)
    (fun t _ => Nat.zero_le _)
  simpa [bmWrite] using this

theorem canon_congr {p q : Nat → Bool} (h : ∀ t, t < 65536 → p t = q t) : canon p = canon q := by
  unfold canon
  rw [canonBlocks_congr (fun t ht => h t (by omega))]

end Verif
