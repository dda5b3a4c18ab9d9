import Verif.Model.Base32
import Verif.Spec.Base32
import Verif.Lemmas.Base64

/-!
# Lemmas on base 32
-/

namespace Verif.Base32

open Verif.Spec Verif.Base64

theorem letter_eq : ∀ v : UInt8, v.toNat < 32 → letter v = b32Digit v.toNat := u8_all (by decide +kernel)

theorem code_eq : ∀ c : UInt8, code c =
    match b32Value c with
    | some v => UInt8.ofNat v
    | none => 255 := u8_all (by decide +kernel)

theorem b32Value_lt : ∀ (c : UInt8) (v : Nat), b32Value c = some v → v < 32 := by
  have : ∀ c : UInt8, (b32Value c).all (· < 32) := u8_all (by decide +kernel)
  intro c v h
  simpa [h] using this c

theorem b32Value_digit {n : Nat} (h : n < 32) : b32Value (b32Digit n) = some n := by
  have : ∀ n : Fin 32, b32Value (b32Digit n) = some n.val := by decide +kernel
  exact this ⟨n, h⟩

theorem b32Value_nth (n i : Nat) : b32Value (b32Nth n i) = some (n / 32 ^ i % 32) :=
  b32Value_digit (Nat.mod_lt _ (by omega))

theorem s0 : ∀ x : UInt8, (x >>> 3).toNat = x.toNat / 8 := u8_all (by decide +kernel)
theorem s1h : ∀ x : UInt8, ((x &&& 0x07) <<< 2).toNat = 2 ^ 2 * (x.toNat % 8) := u8_all (by decide +kernel)
theorem s1l : ∀ x : UInt8, (x >>> 6).toNat = x.toNat / 64 := u8_all (by decide +kernel)
theorem s2 : ∀ x : UInt8, ((x >>> 1) &&& 0x1f).toNat = x.toNat / 2 % 32 := u8_all (by decide +kernel)
theorem s3h : ∀ x : UInt8, ((x &&& 0x01) <<< 4).toNat = 2 ^ 4 * (x.toNat % 2) := u8_all (by decide +kernel)
theorem s3l : ∀ x : UInt8, (x >>> 4).toNat = x.toNat / 16 := u8_all (by decide +kernel)
theorem s4h : ∀ x : UInt8, ((x &&& 0x0f) <<< 1).toNat = 2 ^ 1 * (x.toNat % 16) := u8_all (by decide +kernel)
theorem s4l : ∀ x : UInt8, (x >>> 7).toNat = x.toNat / 128 := u8_all (by decide +kernel)
theorem s5 : ∀ x : UInt8, ((x >>> 2) &&& 0x1f).toNat = x.toNat / 4 % 32 := u8_all (by decide +kernel)
theorem s6h : ∀ x : UInt8, ((x &&& 0x03) <<< 3).toNat = 2 ^ 3 * (x.toNat % 4) := u8_all (by decide +kernel)
theorem s6l : ∀ x : UInt8, (x >>> 5).toNat = x.toNat / 32 := u8_all (by decide +kernel)
theorem s7 : ∀ x : UInt8, (x &&& 0x1f).toNat = x.toNat % 32 := u8_all (by decide +kernel)

theorem letter_nth {v : UInt8} {n i : Nat} (h : v.toNat = n / 32 ^ i % 32) : letter v = b32Nth n i := by
  rw [letter_eq v (by rw [h]; exact Nat.mod_lt _ (by omega)), h, b32Nth]

/-- The eight characters of five bytes. -/
theorem split_eq (a b c d e : UInt8) : (split a b c d e).map letter =
    [b32Nth (five a b c d e) 7, b32Nth (five a b c d e) 6, b32Nth (five a b c d e) 5, b32Nth (five a b c d e) 4,
     b32Nth (five a b c d e) 3, b32Nth (five a b c d e) 2, b32Nth (five a b c d e) 1, b32Nth (five a b c d e) 0] := by
  have := lt256 a
  have := lt256 b
  have := lt256 c
  have := lt256 d
  have := lt256 e
  simp only [split, List.map_cons, List.map_nil, List.cons.injEq, and_true]
  refine ⟨letter_nth ?_, letter_nth ?_, letter_nth ?_, letter_nth ?_, letter_nth ?_, letter_nth ?_, letter_nth ?_, letter_nth ?_⟩ <;>
    rw [five]
  · rw [s0]; omega
  · rw [or_toNat 2 _ (s1h a) (by rw [s1l]; omega), s1h, s1l]; omega
  · rw [s2]; omega
  · rw [or_toNat 4 _ (s3h b) (by rw [s3l]; omega), s3h, s3l]; omega
  · rw [or_toNat 1 _ (s4h c) (by rw [s4l]; omega), s4h, s4l]; omega
  · rw [s5]; omega
  · rw [or_toNat 3 _ (s6h d) (by rw [s6l]; omega), s6h, s6l]; omega
  · rw [s7]; omega

theorem round_eq (size k : Nat) (a b c d e : UInt8) : round size k a b c d e =
    (([b32Nth (five a b c d e) 7, b32Nth (five a b c d e) 6, b32Nth (five a b c d e) 5, b32Nth (five a b c d e) 4,
     b32Nth (five a b c d e) 3, b32Nth (five a b c d e) 2, b32Nth (five a b c d e) 1, b32Nth (five a b c d e) 0] : Bytes).take k).take
       size := by
  rw [round, List.map_take, List.map_take, split_eq]

/-- What the encoder writes given enough room. -/
def written (x : Bytes) : Bytes :=
  if x = [] then List.replicate 8 48 else if x.length % 5 = 2 then (b32Text x).dropLast else b32Text x

theorem b32Text_ne : ∀ x : Bytes, x ≠ [] → b32Text x ≠ []
  | [], h => absurd rfl h
  | [_], _ => by simp [b32Text]
  | [_, _], _ => by simp [b32Text]
  | [_, _, _], _ => by simp [b32Text]
  | [_, _, _, _], _ => by simp [b32Text]
  | _ :: _ :: _ :: _ :: _ :: _, _ => by simp [b32Text]

theorem encode_eq : ∀ (x : Bytes) (size : Nat), encode size x = (written x).take size
  | [], size => by
    rw [encode, round_eq]
    exact congrArg (List.take size) (by decide +kernel)
  | [a], size => by rw [encode, round_eq]; rfl
  | [a, b], size => by rw [encode, round_eq]; rfl
  | [a, b, c], size => by rw [encode, round_eq]; rfl
  | [a, b, c, d], size => by rw [encode, round_eq]; rfl
  | a :: b :: c :: d :: e :: r, size => by
    have h5 : (a :: b :: c :: d :: e :: r).length % 5 = r.length % 5 := by simp only [List.length_cons]; omega
    have hw : ∀ hr : r ≠ [], written (a :: b :: c :: d :: e :: r) =
        [b32Nth (five a b c d e) 7, b32Nth (five a b c d e) 6, b32Nth (five a b c d e) 5, b32Nth (five a b c d e) 4,
         b32Nth (five a b c d e) 3, b32Nth (five a b c d e) 2, b32Nth (five a b c d e) 1, b32Nth (five a b c d e) 0] ++
          written r := by
      intro hr
      rw [written, if_neg (by simp), h5, written, if_neg hr]
      split
      · rw [b32Text, List.dropLast_append_of_ne_nil (b32Text_ne r hr)]
      · rw [b32Text]
    by_cases hr : r = []
    · subst hr
      rw [encode, List.isEmpty_nil, if_pos rfl, ite_self, round_eq]
      simp [written, b32Text]
    · rw [hw hr, encode]
      by_cases hs : size ≤ 8
      · rw [if_pos hs, round_eq, List.take_append_of_le_length (by simpa using hs)]; rfl
      · rw [if_neg hs, if_neg (by simpa using hr), round_eq, encode_eq r]
        rw [List.take_append, List.take_of_length_le (l := List.take 8 _) (by simp; omega)]
        rw [List.take_of_length_le (i := size) (by simp; omega)]
        rfl

theorem j0h : ∀ v : UInt8, ((v <<< (3 : UInt8)) &&& (0xf8 : UInt8)).toNat = 2 ^ 3 * (v.toNat % 32) := u8_all (by decide +kernel)
theorem j0l : ∀ v : UInt8, ((v >>> (2 : UInt8)) &&& (0x07 : UInt8)).toNat = v.toNat % 32 / 4 := u8_all (by decide +kernel)
theorem j1a : ∀ v : UInt8, ((v &&& (0x03 : UInt8)) <<< (6 : UInt8)).toNat = 2 ^ 6 * (v.toNat % 4) := u8_all (by decide +kernel)
theorem j1b : ∀ v : UInt8, ((v &&& (0x1f : UInt8)) <<< (1 : UInt8)).toNat = 2 * (v.toNat % 32) := u8_all (by decide +kernel)
theorem j1c : ∀ v : UInt8, ((v >>> (4 : UInt8)) &&& (1 : UInt8)).toNat = v.toNat % 32 / 16 := u8_all (by decide +kernel)
theorem j2a : ∀ v : UInt8, ((v &&& (0x0f : UInt8)) <<< (4 : UInt8)).toNat = 2 ^ 4 * (v.toNat % 16) := u8_all (by decide +kernel)
theorem j2b : ∀ v : UInt8, ((v >>> (1 : UInt8)) &&& (0x0f : UInt8)).toNat = v.toNat % 32 / 2 := u8_all (by decide +kernel)
theorem j3a : ∀ v : UInt8, ((v &&& (1 : UInt8)) <<< (7 : UInt8)).toNat = 2 ^ 7 * (v.toNat % 2) := u8_all (by decide +kernel)
theorem j3b : ∀ v : UInt8, ((v &&& (0x1f : UInt8)) <<< (2 : UInt8)).toNat = 4 * (v.toNat % 32) := u8_all (by decide +kernel)
theorem j3c : ∀ v : UInt8, ((v >>> (3 : UInt8)) &&& (0x03 : UInt8)).toNat = v.toNat % 32 / 8 := u8_all (by decide +kernel)
theorem j4a : ∀ v : UInt8, ((v &&& (0x07 : UInt8)) <<< (5 : UInt8)).toNat = 2 ^ 5 * (v.toNat % 8) := u8_all (by decide +kernel)
theorem j4b : ∀ v : UInt8, (v &&& (0x1f : UInt8)).toNat = v.toNat % 32 := u8_all (by decide +kernel)

theorem joinEight_eq {a b c d e f g h : UInt8} (ha : a.toNat < 32) (hb : b.toNat < 32) (hc : c.toNat < 32) (hd : d.toNat < 32)
    (he : e.toNat < 32) (hf : f.toNat < 32) (hg : g.toNat < 32) (hh : h.toNat < 32) :
    joinEight a b c d e f g h =
      fiveBytes (eight [a.toNat, b.toNat, c.toNat, d.toNat, e.toNat, f.toNat, g.toNat, h.toNat]) := by
  simp only [joinEight, fiveBytes, eight, List.getD_cons_zero, List.getD_cons_succ, List.cons.injEq, and_true]
  refine ⟨u8_eq ?_, u8_eq ?_, u8_eq ?_, u8_eq ?_, u8_eq ?_⟩
  · rw [or_toNat 3 _ (j0h a) (by rw [j0l]; omega), j0h, j0l]; omega
  · have e1 := or_toNat 6 _ (j1a b) (v := (c &&& (0x1f : UInt8)) <<< (1 : UInt8)) (by rw [j1b]; omega)
    rw [j1a, j1b] at e1
    rw [or_toNat 1 (2 ^ 5 * (b.toNat % 4) + c.toNat % 32) (by rw [e1]; omega) (by rw [j1c]; omega), e1, j1c]; omega
  · rw [or_toNat 4 _ (j2a d) (by rw [j2b]; omega), j2a, j2b]; omega
  · have e1 := or_toNat 7 _ (j3a e) (v := (f &&& (0x1f : UInt8)) <<< (2 : UInt8)) (by rw [j3b]; omega)
    rw [j3a, j3b] at e1
    rw [or_toNat 2 (2 ^ 5 * (e.toNat % 2) + f.toNat % 32) (by rw [e1]; omega) (by rw [j3c]; omega), e1, j3c]; omega
  · rw [or_toNat 5 _ (j4a g) (by rw [j4b]; omega), j4a, j4b]; omega

theorem join_eq {s : Bytes} (hs : ∀ v ∈ s, v.toNat < 32) : join s = fiveBytes (eight (s.map (·.toNat))) := by
  have hv : ∀ i, (s.getD i 0).toNat < 32 := by
    intro i
    rw [List.getD_eq_getElem?_getD]
    cases h : s[i]? with
    | none => decide
    | some v => exact hs v (List.mem_of_getElem? h)
  have hm : ∀ i, (s.map (·.toNat)).getD i 0 = (s.getD i 0).toNat := by
    intro i
    rw [List.getD_eq_getElem?_getD, List.getD_eq_getElem?_getD, List.getElem?_map]
    cases s[i]? <;> rfl
  rw [join, joinEight_eq (hv 0) (hv 1) (hv 2) (hv 3) (hv 4) (hv 5) (hv 6) (hv 7)]
  simp only [eight, hm, List.getD_cons_zero, List.getD_cons_succ]

theorem b32Bytes_eight {l : List Nat} (h : l.length = 8) (r : List Nat) : b32Bytes (l ++ r) = fiveBytes (eight l) ++ b32Bytes r := by
  match l, h with
  | [_, _, _, _, _, _, _, _], _ => rw [← b32Bytes]; rfl

theorem b32Bytes_short {l : List Nat} (h : l ≠ []) (h8 : l.length ≤ 8) : b32Bytes l = fiveBytes (eight l) := by
  match l, h, h8 with
  | [], h, _ => exact absurd rfl h
  | [_], _, _ => rfl
  | [_, _], _, _ => rfl
  | [_, _, _], _, _ => rfl
  | [_, _, _, _], _, _ => rfl
  | [_, _, _, _, _], _, _ => rfl
  | [_, _, _, _, _, _], _, _ => rfl
  | [_, _, _, _, _, _, _], _, _ => rfl
  | [_, _, _, _, _, _, _, _], _, _ => simp [b32Bytes]
  | _ :: _ :: _ :: _ :: _ :: _ :: _ :: _ :: _ :: l, _, h => simp only [List.length_cons] at h; omega

theorem fiveBytes_length (n : Nat) : (fiveBytes n).length = 5 := rfl

/-- One digit. -/
theorem loop_digit {c : UInt8} {v : Nat} (hv : b32Value c = some v) (data : Bytes) (size : Nat) (s : Bytes) :
    decodeLoop (c :: data) size s false =
      if (s ++ [UInt8.ofNat v]).length = 8 ∨ data.isEmpty = true then
        if size ≤ 5 then .ok ((join (s ++ [UInt8.ofNat v])).take size)
        else do
          let r ← decodeLoop data (size - 5) [] false
          .ok (join (s ++ [UInt8.ofNat v]) ++ r)
      else if size = 0 then .ok []
      else decodeLoop data size (s ++ [UInt8.ofNat v]) false := by
  have hc : c ≠ 61 := by rintro rfl; simp [b32Value] at hv
  have hl := b32Value_lt c v hv
  have hcode : code c = UInt8.ofNat v := by rw [code_eq, hv]
  have h255 : UInt8.ofNat v ≠ 255 := by
    intro h
    have := congrArg UInt8.toNat h
    rw [UInt8.toNat_ofNat_of_lt' (by simp [UInt8.size]; omega)] at this
    simp at this; omega
  rw [decodeLoop]
  simp only [hcode, hc, ne_eq, not_false_eq_true, h255, and_false, if_false, Bool.or_false, Bool.false_eq_true, false_or,
    show (c == 61) = false from by simpa using hc]

theorem ofNat_lt {v : Nat} (h : v < 32) : (UInt8.ofNat v).toNat = v := UInt8.toNat_ofNat_of_lt' (by simp [UInt8.size]; omega)

theorem decodeLoop_eq : ∀ (data : Bytes) (vs : List Nat) (size : Nat) (s : Bytes), data.map b32Value = vs.map some → s.length < 8 →
    (∀ v ∈ s, v.toNat < 32) → data ≠ [] →
    decodeLoop data size s false = .ok ((b32Bytes (s.map (·.toNat) ++ vs)).take size)
  | [], _, _, _, _, _, _, h => absurd rfl h
  | c :: data, [], _, _, h, _, _, _ => by simp at h
  | c :: data, v :: vs, size, s, h, hs, hl, _ => by
    simp only [List.map_cons, List.cons.injEq] at h
    obtain ⟨hv, hd⟩ := h
    have hv32 := b32Value_lt c v hv
    have hl' : ∀ w ∈ s ++ [UInt8.ofNat v], w.toNat < 32 := by
      intro w hw
      rcases List.mem_append.1 hw with hw | hw
      · exact hl w hw
      · rw [List.mem_singleton.1 hw, ofNat_lt hv32]; exact hv32
    have hm : s.map (·.toNat) ++ v :: vs = (s ++ [UInt8.ofNat v]).map (·.toNat) ++ vs := by
      simp [ofNat_lt hv32]
    rw [loop_digit hv, hm]
    by_cases hd0 : data = []
    · subst hd0
      have hvs : vs = [] := by cases vs with
        | nil => rfl
        | cons => simp at hd
      subst hvs
      rw [if_pos (.inr rfl), List.append_nil, b32Bytes_short (by simp) (by simp; omega), ← join_eq hl']
      split
      · rfl
      · simp only [decodeLoop, Out.ok_bind, List.append_nil]
        rw [List.take_of_length_le]
        rw [join_eq hl', fiveBytes_length]; omega
    · by_cases h8 : (s ++ [UInt8.ofNat v]).length = 8
      · rw [if_pos (.inl h8), b32Bytes_eight (by rw [List.length_map]; exact h8), ← join_eq hl']
        have hj : (join (s ++ [UInt8.ofNat v])).length = 5 := rfl
        split
        · rw [List.take_append_of_le_length (by rw [hj]; assumption)]
        · have ih := decodeLoop_eq data vs (size - 5) [] hd (by simp) (by simp) hd0
          simp only [List.map_nil, List.nil_append] at ih
          rw [ih, Out.ok_bind, List.take_append, List.take_of_length_le (l := join _) (by rw [hj]; omega), hj]
      · rw [if_neg (by simp only [List.isEmpty_iff]; exact fun h => h.elim h8 hd0)]
        split
        · subst size; simp
        · exact decodeLoop_eq data vs size _ hd (by simp at h8 ⊢; omega) hl' hd0

theorem getD_snoc_zero (s : Bytes) (i : Nat) : (s ++ [0]).getD i 0 = s.getD i 0 := by
  rw [List.getD_eq_getElem?_getD, List.getD_eq_getElem?_getD, List.getElem?_append]
  split
  · rfl
  · rename_i h
    rw [List.getElem?_eq_none (l := s) (by omega)]
    cases i - s.length <;> simp

theorem decodeLoop_pad : ∀ (data : Bytes) (vs : List Nat) (size : Nat) (s pads : Bytes), data.map b32Value = vs.map some →
    s.length < 8 → (∀ v ∈ s, v.toNat < 32) → s.map (·.toNat) ++ vs ≠ [] → size ≤ (b32Bytes (s.map (·.toNat) ++ vs)).length →
    decodeLoop (data ++ 61 :: pads) size s false = .ok ((b32Bytes (s.map (·.toNat) ++ vs)).take size)
  | [], _ :: _, _, _, _, h, _, _, _, _ => by simp at h
  | [], [], size, s, pads, _, hs, hl, hne, hsz => by
    rw [List.append_nil] at hne hsz ⊢
    rw [b32Bytes_short hne (by rw [List.length_map]; omega)] at hsz ⊢
    rw [List.nil_append, decodeLoop]
    simp only [beq_self_eq_true, Bool.or_true, if_true, ne_eq, not_true_eq_false, false_and, if_false, true_or, or_true]
    rw [fiveBytes_length] at hsz
    rw [if_pos hsz, ← join_eq hl, join, join]
    simp only [getD_snoc_zero]
  | c :: data, [], _, _, _, h, _, _, _, _ => by simp at h
  | c :: data, v :: vs, size, s, pads, h, hs, hl, _, hsz => by
    simp only [List.map_cons, List.cons.injEq] at h
    obtain ⟨hv, hd⟩ := h
    have hv32 := b32Value_lt c v hv
    have hl' : ∀ w ∈ s ++ [UInt8.ofNat v], w.toNat < 32 := by
      intro w hw
      rcases List.mem_append.1 hw with hw | hw
      · exact hl w hw
      · rw [List.mem_singleton.1 hw, ofNat_lt hv32]; exact hv32
    have hm : s.map (·.toNat) ++ v :: vs = (s ++ [UInt8.ofNat v]).map (·.toNat) ++ vs := by
      simp [ofNat_lt hv32]
    rw [hm] at hsz
    rw [List.cons_append, loop_digit hv, hm]
    by_cases h8 : (s ++ [UInt8.ofNat v]).length = 8
    · rw [b32Bytes_eight (by rw [List.length_map]; exact h8), ← join_eq hl'] at hsz ⊢
      rw [if_pos (.inl h8)]
      have hj : (join (s ++ [UInt8.ofNat v])).length = 5 := rfl
      split
      · rw [List.take_append_of_le_length (by rw [hj]; assumption)]
      · rw [List.length_append, hj] at hsz
        have hvs : vs ≠ [] := by rintro rfl; simp [b32Bytes] at hsz; omega
        have ih := decodeLoop_pad data vs (size - 5) [] pads hd (by simp) (by simp) (by simpa using hvs)
          (by simp only [List.map_nil, List.nil_append]; omega)
        simp only [List.map_nil, List.nil_append] at ih
        rw [ih, Out.ok_bind, List.take_append, List.take_of_length_le (l := join _) (by rw [hj]; omega), hj]
    · rw [if_neg (by simp only [List.isEmpty_iff]; exact fun h => h.elim h8 (by simp))]
      split
      · subst size; simp
      · exact decodeLoop_pad data vs size _ pads hd (by simp at h8 ⊢; omega) hl' (by simp) hsz

theorem decodeLoop_room : ∀ (data : Bytes) (size : Nat) (s : Bytes) (pad : Bool),
    decodeLoop data size s pad = .fail ∨ ∃ r, decodeLoop data size s pad = .ok r ∧ r.length ≤ size
  | [], _, _, _ => .inr ⟨[], rfl, Nat.zero_le _⟩
  | c :: data, size, s, pad => by
    rw [decodeLoop]
    simp only []
    generalize (if c = 61 then (0 : UInt8) else code c) = v
    split
    · exact .inl rfl
    · split
      · split
        · exact .inr ⟨_, rfl, by rw [List.length_take]; omega⟩
        · rcases decodeLoop_room data (size - 5) [] (pad || c == 61) with h | ⟨r, h, hl⟩
          · exact .inl (by rw [h]; rfl)
          · refine .inr ⟨_, by rw [h]; rfl, ?_⟩
            rw [List.length_append, show (join _).length = 5 from rfl]; omega
      · split
        · exact .inr ⟨[], rfl, Nat.zero_le _⟩
        · exact decodeLoop_room data size _ _

theorem decodeLoop_bad : ∀ (data : Bytes) (vs : List Nat) (size : Nat) (s : Bytes) (c : UInt8) (r : Bytes),
    data.map b32Value = vs.map some → s.length < 8 → b32Value c = none → c ≠ 61 → 5 * ((s.length + vs.length) / 8) < size →
    decodeLoop (data ++ c :: r) size s false = .fail
  | [], _ :: _, _, _, _, _, h, _, _, _, _ => by simp at h
  | [], [], size, s, c, r, _, _, hc, hp, _ => by
    rw [List.nil_append, decodeLoop]
    simp only [if_neg hp]
    rw [if_pos ⟨hp, by rw [code_eq, hc]⟩]
  | d :: data, [], _, _, _, _, h, _, _, _, _ => by simp at h
  | d :: data, v :: vs, size, s, c, r, h, hs, hc, hp, hsz => by
    simp only [List.map_cons, List.cons.injEq] at h
    obtain ⟨hv, hd⟩ := h
    rw [List.length_cons] at hsz
    rw [List.cons_append, loop_digit hv]
    by_cases h8 : (s ++ [UInt8.ofNat v]).length = 8
    · have h7 : s.length = 7 := by simpa using h8
      rw [if_pos (.inl h8), if_neg (by omega), decodeLoop_bad data vs (size - 5) [] c r hd (by simp) hc hp
        (by simp only [List.length_nil]; omega)]
      rfl
    · have h7 : s.length ≠ 7 := by simpa using h8
      rw [if_neg (by simp only [List.isEmpty_iff]; exact fun h => h.elim h8 (by simp)), if_neg (by omega)]
      refine decodeLoop_bad data vs size _ c r hd ?_ hc hp ?_
      · rw [List.length_append, List.length_singleton]; omega
      · rw [List.length_append, List.length_singleton, show s.length + 1 + vs.length = s.length + (vs.length + 1) by omega]; exact hsz

/-- The values of the digits of a text. -/
theorem text_digits : ∀ x : Bytes, (b32Text x).map b32Value = ((b32Text x).filterMap b32Value).map some
  | [] => rfl
  | [_] => by simp [b32Text, b32Value_nth]
  | [_, _] => by simp [b32Text, b32Value_nth]
  | [_, _, _] => by simp [b32Text, b32Value_nth]
  | [_, _, _, _] => by simp [b32Text, b32Value_nth]
  | _ :: _ :: _ :: _ :: _ :: r => by simp [b32Text, b32Value_nth, text_digits r]

theorem five_bytes (a b c d e : UInt8) (n : Nat) (h : n = five a b c d e) : fiveBytes n = [a, b, c, d, e] := by
  have := lt256 a
  have := lt256 b
  have := lt256 c
  have := lt256 d
  have := lt256 e
  subst h
  simp only [fiveBytes, five, List.cons.injEq, and_true]
  exact ⟨(u8_eq (by omega)).symm, (u8_eq (by omega)).symm, (u8_eq (by omega)).symm, (u8_eq (by omega)).symm, (u8_eq (by omega)).symm⟩

theorem five_lt (a b c d e : UInt8) : five a b c d e < 32 ^ 8 := by
  have := lt256 a
  have := lt256 b
  have := lt256 c
  have := lt256 d
  have := lt256 e
  rw [five]; omega

theorem step32 (n i : Nat) : n / 32 ^ i = 32 * (n / 32 ^ (i + 1)) + n / 32 ^ i % 32 := by
  rw [Nat.pow_succ, ← Nat.div_div_eq_div_mul]
  omega

theorem eight_digits {n : Nat} (h : n < 32 ^ 8) : eight [n / 32 ^ 7 % 32, n / 32 ^ 6 % 32, n / 32 ^ 5 % 32, n / 32 ^ 4 % 32,
    n / 32 ^ 3 % 32, n / 32 ^ 2 % 32, n / 32 ^ 1 % 32, n / 32 ^ 0 % 32] = n := by
  have e0 := step32 n 0
  have e1 := step32 n 1
  have e2 := step32 n 2
  have e3 := step32 n 3
  have e4 := step32 n 4
  have e5 := step32 n 5
  have e6 := step32 n 6
  have e7 := step32 n 7
  have e8 : n / 32 ^ 8 = 0 := Nat.div_eq_of_lt h
  have en : n / 32 ^ 0 = n := by simp
  simp only [eight, List.getD_cons_zero, List.getD_cons_succ]
  simp only [Nat.reduceAdd] at e0 e1 e2 e3 e4 e5 e6 e7
  generalize n / 32 ^ 0 % 32 = r0 at *
  generalize n / 32 ^ 1 % 32 = r1 at *
  generalize n / 32 ^ 2 % 32 = r2 at *
  generalize n / 32 ^ 3 % 32 = r3 at *
  generalize n / 32 ^ 4 % 32 = r4 at *
  generalize n / 32 ^ 5 % 32 = r5 at *
  generalize n / 32 ^ 6 % 32 = r6 at *
  generalize n / 32 ^ 7 % 32 = r7 at *
  generalize n / 32 ^ 0 = q0 at *
  generalize n / 32 ^ 1 = q1 at *
  generalize n / 32 ^ 2 = q2 at *
  generalize n / 32 ^ 3 = q3 at *
  generalize n / 32 ^ 4 = q4 at *
  generalize n / 32 ^ 5 = q5 at *
  generalize n / 32 ^ 6 = q6 at *
  generalize n / 32 ^ 7 = q7 at *
  generalize n / 32 ^ 8 = q8 at *
  omega

/-- Digits that are zero need not be written. -/
theorem eight_take (l : List Nat) (k : Nat) (h : ∀ v ∈ l.drop k, v = 0) : eight (l.take k) = eight l := by
  have hg : ∀ i, (l.take k).getD i 0 = l.getD i 0 := by
    intro i
    rw [List.getD_eq_getElem?_getD, List.getD_eq_getElem?_getD]
    by_cases hi : i < k
    · rw [List.getElem?_take_of_lt hi]
    · rw [List.getElem?_eq_none (l := l.take k) (by rw [List.length_take]; omega)]
      cases hl : l[i]? with
      | none => rfl
      | some v =>
        have : v ∈ l.drop k := List.mem_of_getElem? (i := i - k) (by rw [List.getElem?_drop, show k + (i - k) = i by omega]; exact hl)
        exact (h v this).symm
  simp only [eight, hg]

/-- The low digits of a number with low bits zero. -/
theorem digit_zero {n k i : Nat} (h : n % 32 ^ k = 0) (hi : i < k) : n / 32 ^ i % 32 = 0 := by
  obtain ⟨m, rfl⟩ := Nat.dvd_of_mod_eq_zero h
  obtain ⟨j, rfl⟩ : ∃ j, k = i + 1 + j := ⟨k - (i + 1), by omega⟩
  rw [show 32 ^ (i + 1 + j) * m = 32 ^ i * (32 * (32 ^ j * m)) by
    rw [Nat.pow_add, Nat.pow_succ]; simp only [Nat.mul_assoc]]
  rw [Nat.mul_div_cancel_left _ (Nat.pow_pos (by omega)), Nat.mul_mod_right]

theorem eight_digits_take {n : Nat} (h : n < 32 ^ 8) (k : Nat) (hk : k ≤ 8) (hz : n % 32 ^ (8 - k) = 0) :
    eight ([n / 32 ^ 7 % 32, n / 32 ^ 6 % 32, n / 32 ^ 5 % 32, n / 32 ^ 4 % 32,
    n / 32 ^ 3 % 32, n / 32 ^ 2 % 32, n / 32 ^ 1 % 32, n / 32 ^ 0 % 32].take k) = n := by
  rw [eight_take, eight_digits h]
  intro v hv
  obtain ⟨i, hi⟩ := List.mem_iff_getElem?.1 hv
  rw [List.getElem?_drop] at hi
  have hl : k + i < 8 := by
    have := (List.getElem?_eq_some_iff.1 hi).1
    simpa using this
  have : v = n / 32 ^ (7 - (k + i)) % 32 := by
    generalize k + i = j at hi hl
    match j, hl with
    | 0, _ => exact (Option.some.inj hi).symm
    | 1, _ => exact (Option.some.inj hi).symm
    | 2, _ => exact (Option.some.inj hi).symm
    | 3, _ => exact (Option.some.inj hi).symm
    | 4, _ => exact (Option.some.inj hi).symm
    | 5, _ => exact (Option.some.inj hi).symm
    | 6, _ => exact (Option.some.inj hi).symm
    | 7, _ => exact (Option.some.inj hi).symm
  rw [this]
  exact digit_zero hz (by omega)

theorem five_zero1 (a : UInt8) : five a 0 0 0 0 % 32 ^ (8 - 2) = 0 := by
  rw [five]; simp only [UInt8.toNat_zero]; omega
theorem five_zero2 (a b : UInt8) : five a b 0 0 0 % 32 ^ (8 - 4) = 0 := by
  rw [five]; simp only [UInt8.toNat_zero]; omega
theorem five_zero3 (a b c : UInt8) : five a b c 0 0 % 32 ^ (8 - 5) = 0 := by
  rw [five]; simp only [UInt8.toNat_zero]; omega
theorem five_zero4 (a b c d : UInt8) : five a b c d 0 % 32 ^ (8 - 7) = 0 := by
  rw [five]; simp only [UInt8.toNat_zero]; omega

theorem back2 (a : UInt8) : fiveBytes (eight [five a 0 0 0 0 / 32 ^ 7 % 32, five a 0 0 0 0 / 32 ^ 6 % 32]) = [a, 0, 0, 0, 0] := by
  refine five_bytes a 0 0 0 0 _ ?_
  have h := eight_digits_take (five_lt a 0 0 0 0) 2 (by omega) (five_zero1 a)
  generalize five a 0 0 0 0 = n at h ⊢
  simpa only [List.take_succ_cons, List.take_zero] using h

theorem back4 (a b : UInt8) : fiveBytes (eight [five a b 0 0 0 / 32 ^ 7 % 32, five a b 0 0 0 / 32 ^ 6 % 32, five a b 0 0 0 / 32 ^ 5 % 32, five a b 0 0 0 / 32 ^ 4 % 32]) = [a, b, 0, 0, 0] := by
  refine five_bytes a b 0 0 0 _ ?_
  have h := eight_digits_take (five_lt a b 0 0 0) 4 (by omega) (five_zero2 a b)
  generalize five a b 0 0 0 = n at h ⊢
  simpa only [List.take_succ_cons, List.take_zero] using h

theorem back5 (a b c : UInt8) : fiveBytes (eight [five a b c 0 0 / 32 ^ 7 % 32, five a b c 0 0 / 32 ^ 6 % 32, five a b c 0 0 / 32 ^ 5 % 32, five a b c 0 0 / 32 ^ 4 % 32, five a b c 0 0 / 32 ^ 3 % 32]) = [a, b, c, 0, 0] := by
  refine five_bytes a b c 0 0 _ ?_
  have h := eight_digits_take (five_lt a b c 0 0) 5 (by omega) (five_zero3 a b c)
  generalize five a b c 0 0 = n at h ⊢
  simpa only [List.take_succ_cons, List.take_zero] using h

theorem back7 (a b c d : UInt8) : fiveBytes (eight [five a b c d 0 / 32 ^ 7 % 32, five a b c d 0 / 32 ^ 6 % 32, five a b c d 0 / 32 ^ 5 % 32, five a b c d 0 / 32 ^ 4 % 32, five a b c d 0 / 32 ^ 3 % 32, five a b c d 0 / 32 ^ 2 % 32, five a b c d 0 / 32 ^ 1 % 32]) = [a, b, c, d, 0] := by
  refine five_bytes a b c d 0 _ ?_
  have h := eight_digits_take (five_lt a b c d 0) 7 (by omega) (five_zero4 a b c d)
  generalize five a b c d 0 = n at h ⊢
  simpa only [List.take_succ_cons, List.take_zero] using h

theorem back8 (a b c d e : UInt8) : fiveBytes (eight [five a b c d e / 32 ^ 7 % 32, five a b c d e / 32 ^ 6 % 32, five a b c d e / 32 ^ 5 % 32, five a b c d e / 32 ^ 4 % 32, five a b c d e / 32 ^ 3 % 32, five a b c d e / 32 ^ 2 % 32, five a b c d e / 32 ^ 1 % 32, five a b c d e / 32 ^ 0 % 32]) = [a, b, c, d, e] := by
  refine five_bytes a b c d e _ ?_
  have h := five_lt a b c d e
  generalize five a b c d e = n at h ⊢
  exact eight_digits h

theorem values_cons (n i : Nat) (l : Bytes) : (b32Nth n i :: l).filterMap b32Value = n / 32 ^ i % 32 :: l.filterMap b32Value :=
  List.filterMap_cons_some (b32Value_nth n i)

theorem values2 (n : Nat) (l : Bytes) : ([b32Nth n 7, b32Nth n 6] ++ l).filterMap b32Value =
    [n / 32 ^ 7 % 32, n / 32 ^ 6 % 32] ++ l.filterMap b32Value := by
  simp only [List.cons_append, List.nil_append]
  rw [values_cons, values_cons]

theorem values4 (n : Nat) (l : Bytes) : ([b32Nth n 7, b32Nth n 6, b32Nth n 5, b32Nth n 4] ++ l).filterMap b32Value =
    [n / 32 ^ 7 % 32, n / 32 ^ 6 % 32, n / 32 ^ 5 % 32, n / 32 ^ 4 % 32] ++ l.filterMap b32Value := by
  simp only [List.cons_append, List.nil_append]
  rw [values_cons, values_cons, values_cons, values_cons]

theorem values5 (n : Nat) (l : Bytes) : ([b32Nth n 7, b32Nth n 6, b32Nth n 5, b32Nth n 4, b32Nth n 3] ++ l).filterMap b32Value =
    [n / 32 ^ 7 % 32, n / 32 ^ 6 % 32, n / 32 ^ 5 % 32, n / 32 ^ 4 % 32, n / 32 ^ 3 % 32] ++ l.filterMap b32Value := by
  simp only [List.cons_append, List.nil_append]
  rw [values_cons, values_cons, values_cons, values_cons, values_cons]

theorem values7 (n : Nat) (l : Bytes) : ([b32Nth n 7, b32Nth n 6, b32Nth n 5, b32Nth n 4, b32Nth n 3, b32Nth n 2, b32Nth n 1] ++ l).filterMap b32Value =
    [n / 32 ^ 7 % 32, n / 32 ^ 6 % 32, n / 32 ^ 5 % 32, n / 32 ^ 4 % 32, n / 32 ^ 3 % 32, n / 32 ^ 2 % 32, n / 32 ^ 1 % 32] ++ l.filterMap b32Value := by
  simp only [List.cons_append, List.nil_append]
  rw [values_cons, values_cons, values_cons, values_cons, values_cons, values_cons, values_cons]

theorem values8 (n : Nat) (l : Bytes) : ([b32Nth n 7, b32Nth n 6, b32Nth n 5, b32Nth n 4, b32Nth n 3, b32Nth n 2, b32Nth n 1, b32Nth n 0] ++ l).filterMap b32Value =
    [n / 32 ^ 7 % 32, n / 32 ^ 6 % 32, n / 32 ^ 5 % 32, n / 32 ^ 4 % 32, n / 32 ^ 3 % 32, n / 32 ^ 2 % 32, n / 32 ^ 1 % 32, n / 32 ^ 0 % 32] ++ l.filterMap b32Value := by
  simp only [List.cons_append, List.nil_append]
  rw [values_cons, values_cons, values_cons, values_cons, values_cons, values_cons, values_cons, values_cons]

theorem read_cons (a b c d e : UInt8) (r : Bytes) : b32Bytes ((b32Text (a :: b :: c :: d :: e :: r)).filterMap b32Value) =
    [a, b, c, d, e] ++ b32Bytes ((b32Text r).filterMap b32Value) := by
  have h := back8 a b c d e
  rw [b32Text]
  generalize five a b c d e = n at h
  rw [values8, b32Bytes_eight (by simp only [List.length_cons, List.length_nil]), h]

theorem read1 (a : UInt8) : b32Bytes ((b32Text [a]).filterMap b32Value) = [a, 0, 0, 0, 0] := by
  have h := back2 a
  rw [b32Text]
  generalize five a 0 0 0 0 = n at h
  have e := values2 n []
  rw [List.append_nil, List.filterMap_nil, List.append_nil] at e
  rw [e, b32Bytes_short (by simp) (by simp), h]

theorem read2 (a b : UInt8) : b32Bytes ((b32Text [a, b]).filterMap b32Value) = [a, b, 0, 0, 0] := by
  have h := back4 a b
  rw [b32Text]
  generalize five a b 0 0 0 = n at h
  have e := values4 n []
  rw [List.append_nil, List.filterMap_nil, List.append_nil] at e
  rw [e, b32Bytes_short (by simp) (by simp), h]

theorem read3 (a b c : UInt8) : b32Bytes ((b32Text [a, b, c]).filterMap b32Value) = [a, b, c, 0, 0] := by
  have h := back5 a b c
  rw [b32Text]
  generalize five a b c 0 0 = n at h
  have e := values5 n []
  rw [List.append_nil, List.filterMap_nil, List.append_nil] at e
  rw [e, b32Bytes_short (by simp) (by simp), h]

theorem read4 (a b c d : UInt8) : b32Bytes ((b32Text [a, b, c, d]).filterMap b32Value) = [a, b, c, d, 0] := by
  have h := back7 a b c d
  rw [b32Text]
  generalize five a b c d 0 = n at h
  have e := values7 n []
  rw [List.append_nil, List.filterMap_nil, List.append_nil] at e
  rw [e, b32Bytes_short (by simp) (by simp), h]

theorem read_text : ∀ x : Bytes, (b32Bytes ((b32Text x).filterMap b32Value)).take x.length = x ∧
    x.length ≤ (b32Bytes ((b32Text x).filterMap b32Value)).length
  | [] => by simp
  | [a] => by rw [read1]; simp
  | [a, b] => by rw [read2]; simp
  | [a, b, c] => by rw [read3]; simp
  | [a, b, c, d] => by rw [read4]; simp
  | a :: b :: c :: d :: e :: r => by
    obtain ⟨ih, il⟩ := read_text r
    rw [read_cons]
    generalize b32Bytes ((b32Text r).filterMap b32Value) = z at ih il
    simp only [List.length_cons, List.cons_append, List.nil_append, List.take_succ_cons, ih, true_and]
    omega

end Verif.Base32
