import Verif.Model.Varint
import Verif.Spec.Varint

/-! Helper lemmas about variable-length integers. -/

namespace Verif
open Spec

theorem u8_toNat_ofNat (n : Nat) : (UInt8.ofNat n).toNat = n % 256 := by
  simp [UInt8.toNat_ofNat']

theorem u8_ofNat_congr {a b : Nat} (h : a % 256 = b % 256) : UInt8.ofNat a = UInt8.ofNat b := by
  apply UInt8.toNat.inj
  rw [u8_toNat_ofNat, u8_toNat_ofNat, h]

theorem or128 (v : Nat) : (v ||| 128) % 256 = v % 128 + 128 := by
  have h1 : v = 128 * (v / 128) + v % 128 := by omega
  have h2 : (v ||| 128) % 2 ^ 8 = v % 2 ^ 8 ||| 128 % 2 ^ 8 := Nat.or_mod_two_pow
  simp only [show (2 : Nat) ^ 8 = 256 from rfl, show 128 % 256 = 128 from rfl] at h2
  rw [h2]
  have hlt : v % 128 < 2 ^ 7 := by omega
  have key := Nat.two_pow_add_eq_or_of_lt hlt 1
  simp only [show (2 : Nat) ^ 7 = 128 from rfl, Nat.mul_one] at key
  rcases Nat.lt_or_ge (v % 256) 128 with h | h
  · have : v % 256 = v % 128 := by omega
    rw [this, Nat.or_comm, ← key]; omega
  · have : v % 256 = 128 + v % 128 := by omega
    rw [this, key, Nat.or_comm 128, Nat.or_assoc, Nat.or_self, Nat.or_comm, ← key]; omega

theorem and127_or128 (v : Nat) : ((v &&& 127) ||| 128) % 256 = v % 128 + 128 := by
  rw [or128]
  have : v &&& 127 = v % 128 := Nat.and_two_pow_sub_one_eq_mod v 7
  rw [this]; omega

theorem encode64_eq_leb (v : Nat) : varintEncode64 v = leb v := by
  induction v using Nat.strongRecOn with
  | ind v ih =>
    rw [varintEncode64, leb]
    split
    · rfl
    · have : v >>> 7 = v / 128 := by rw [Nat.shiftRight_eq_div_pow]
      rw [this, ih (v / 128) (by omega)]
      congr 1
      apply u8_ofNat_congr
      rw [and127_or128]; omega

theorem leb_small {v : Nat} (h : v < 128) : leb v = [UInt8.ofNat v] := by
  rw [leb]; simp [h]

theorem leb_big {v : Nat} (h : 128 ≤ v) : leb v = UInt8.ofNat (v % 128 + 128) :: leb (v / 128) := by
  rw [leb]; simp [show ¬ v < 128 by omega]

theorem encode32_eq_leb {v : Nat} (h : v < 2 ^ 32) : varintEncode32 v = leb v := by
  have e (k : Nat) : UInt8.ofNat (v >>> k ||| 128) = UInt8.ofNat (v >>> k % 128 + 128) := by
    apply u8_ofNat_congr; rw [or128]; omega
  have e0 : UInt8.ofNat (v ||| 128) = UInt8.ofNat (v % 128 + 128) := by
    apply u8_ofNat_congr; rw [or128]; omega
  unfold varintEncode32
  simp only [e, e0]
  simp only [Nat.shiftRight_eq_div_pow]
  split
  · rw [leb_small (by omega)]
  split
  · rw [leb_big (by omega), leb_small (by omega)]
  split
  · rw [leb_big (by omega), leb_big (by omega), leb_small (by omega)]
    simp [Nat.div_div_eq_div_mul]
  split
  · rw [leb_big (by omega), leb_big (by omega), leb_big (by omega), leb_small (by omega)]
    simp [Nat.div_div_eq_div_mul]
  · rw [leb_big (by omega), leb_big (by omega), leb_big (by omega), leb_big (by omega),
      leb_small (by omega)]
    simp [Nat.div_div_eq_div_mul]

theorem leb_ne_nil (v : Nat) : leb v ≠ [] := by
  rw [leb]; split <;> simp

theorem leb_length_pos (v : Nat) : 0 < (leb v).length :=
  List.length_pos_iff.mpr (leb_ne_nil v)

theorem leb_length (v : Nat) : (leb v).length = varintLength v := by
  induction v using Nat.strongRecOn with
  | ind v ih =>
    rw [leb, varintLength]
    split
    · rfl
    · rw [List.length_cons, ih (v / 128) (by omega)]; omega

theorem leb_length_le {v : Nat} (k : Nat) (h : v < 128 ^ (k + 1)) : (leb v).length ≤ k + 1 := by
  induction k generalizing v with
  | zero => rw [leb_small (by simpa using h)]; simp
  | succ k ih =>
    rcases Nat.lt_or_ge v 128 with hv | hv
    · rw [leb_small hv]; simp
    · rw [leb_big hv, List.length_cons]
      have : v / 128 < 128 ^ (k + 1) := by
        rw [Nat.div_lt_iff_lt_mul (by omega)]
        rw [Nat.pow_succ] at h; omega
      have := ih this
      omega

theorem leb_length_le_10 {v : Nat} (h : v < 2 ^ 64) : (leb v).length ≤ 10 :=
  leb_length_le 9 (by have : (2:Nat)^64 < 128^(9+1) := by decide
                      omega)

theorem leb_length_le_5 {v : Nat} (h : v < 2 ^ 32) : (leb v).length ≤ 5 :=
  leb_length_le 4 (by have : (2:Nat)^32 < 128^(4+1) := by decide
                      omega)

theorem leb_terminated (v : Nat) : terminated (leb v) := by
  induction v using Nat.strongRecOn with
  | ind v ih =>
    rcases Nat.lt_or_ge v 128 with hv | hv
    · rw [leb_small hv]; simp only [terminated, u8_toNat_ofNat]; omega
    · rw [leb_big hv]
      have := ih (v / 128) (by omega)
      cases hl : leb (v / 128) with
      | nil => exact absurd hl (leb_ne_nil _)
      | cons b bs =>
        rw [hl] at this
        simp only [terminated, u8_toNat_ofNat]
        exact ⟨by omega, this⟩

theorem leval_leb (v : Nat) : leval (leb v) = v := by
  induction v using Nat.strongRecOn with
  | ind v ih =>
    rcases Nat.lt_or_ge v 128 with hv | hv
    · rw [leb_small hv]; simp only [leval, u8_toNat_ofNat]; omega
    · rw [leb_big hv]; simp only [leval, u8_toNat_ofNat]
      rw [ih (v / 128) (by omega)]; omega

theorem leb_inj {a b : Nat} (h : leb a = leb b) : a = b := by
  rw [← leval_leb a, h, leval_leb]

theorem terminated_prefix_eq {a b : Bytes} {s t : Bytes} (ha : terminated a) (hb : terminated b)
    (h : a ++ s = b ++ t) : a = b ∧ s = t := by
  induction a generalizing b with
  | nil => exact ha.elim
  | cons x xs ih =>
    cases b with
    | nil => exact hb.elim
    | cons y ys =>
      simp only [List.cons_append, List.cons.injEq] at h
      obtain ⟨rfl, h⟩ := h
      cases xs with
      | nil =>
        cases ys with
        | nil => simpa using h
        | cons z zs => simp only [terminated] at ha hb; omega
      | cons z zs =>
        cases ys with
        | nil => simp only [terminated] at ha hb; omega
        | cons w ws =>
          simp only [terminated] at ha hb
          have := ih ha.2 hb.2 h
          simp [this]

theorem lengthPackedLoop_terminated {ds : Bytes} (h : terminated ds) (rest : Bytes) (n : Nat)
    (hn : ds.length ≤ n) : lengthPackedLoop n (ds ++ rest) = .ok (some ds.length) := by
  induction ds generalizing n with
  | nil => exact h.elim
  | cons b bs ih =>
    cases n with
    | zero => simp at hn
    | succ n =>
      cases bs with
      | nil =>
        simp only [terminated] at h
        simp [lengthPackedLoop, h]
      | cons c cs =>
        simp only [terminated] at h
        have := ih h.2 n (by simpa using hn)
        simp only [List.cons_append] at this ⊢
        simp [lengthPackedLoop, show ¬ b.toNat < 128 by omega, this]

theorem lengthPacked_terminated {ds : Bytes} (h : terminated ds) (rest : Bytes) (n : Nat)
    (hn : ds.length ≤ n) : varintLengthPacked (ds ++ rest) n = .ok ds.length := by
  simp [varintLengthPacked, lengthPackedLoop_terminated h rest n hn]

theorem and7f (n : Nat) : n &&& 0x7f = n % 128 := Nat.and_two_pow_sub_one_eq_mod n 7

theorem low7_eq {data : Bytes} {i : Nat} (h : i < data.length) :
    low7 data i = .ok (data[i].toNat % 128) := by
  simp [low7, byteAt_lt h, and7f]

theorem or_shift (a b k : Nat) (h : a < 2 ^ k) : a ||| (b <<< k) = a + 2 ^ k * b := by
  rw [Nat.shiftLeft_eq, Nat.mul_comm, Nat.or_comm, ← Nat.two_pow_add_eq_or_of_lt h]; omega

theorem decode32_terminated {ds : Bytes} (h : terminated ds) (hl : ds.length ≤ 5) (rest : Bytes) :
    varintDecode32 (ds ++ rest) = .ok (ds.length, leval ds % 2 ^ 32) := by
  unfold varintDecode32
  rw [lengthPacked_terminated h rest 5 hl]
  match ds, h, hl with
  | [a], h, _ =>
    simp only [terminated] at h
    simp [low7, byteAt, and7f, leval]; omega
  | [a, b], h, _ =>
    simp only [terminated] at h
    have h1 := or_shift (a.toNat % 128) (b.toNat % 128) 7 (by omega)
    simp [low7, byteAt, and7f, leval, h1]; omega
  | [a, b, c], h, _ =>
    simp only [terminated] at h
    have h1 := or_shift (a.toNat % 128) (b.toNat % 128) 7 (by omega)
    have h2 := or_shift (a.toNat % 128 + 2 ^ 7 * (b.toNat % 128)) (c.toNat % 128) 14 (by omega)
    simp [low7, byteAt, and7f, leval, h1] at h2 ⊢; omega
  | [a, b, c, d], h, _ =>
    simp only [terminated] at h
    have h1 := or_shift (a.toNat % 128) (b.toNat % 128) 7 (by omega)
    have h2 := or_shift (a.toNat % 128 + 2 ^ 7 * (b.toNat % 128)) (c.toNat % 128) 14 (by omega)
    have h3 := or_shift (a.toNat % 128 + 2 ^ 7 * (b.toNat % 128) + 2 ^ 14 * (c.toNat % 128))
      (d.toNat % 128) 21 (by omega)
    simp only [low7, byteAt, and7f, leval, List.length_cons, List.length_nil, Out.ok_bind,
      List.cons_append, List.nil_append, List.getElem?_cons_zero, List.getElem?_cons_succ, h1, h2, h3]
    simp; omega
  | [a, b, c, d, e], h, _ =>
    simp only [terminated] at h
    have h1 := or_shift (a.toNat % 128) (b.toNat % 128) 7 (by omega)
    have h2 := or_shift (a.toNat % 128 + 2 ^ 7 * (b.toNat % 128)) (c.toNat % 128) 14 (by omega)
    have h3 := or_shift (a.toNat % 128 + 2 ^ 7 * (b.toNat % 128) + 2 ^ 14 * (c.toNat % 128))
      (d.toNat % 128) 21 (by omega)
    have h4 := or_shift (a.toNat % 128 + 2 ^ 7 * (b.toNat % 128) + 2 ^ 14 * (c.toNat % 128)
      + 2 ^ 21 * (d.toNat % 128)) e.toNat 28 (by omega)
    simp only [low7, byteAt, and7f, leval, List.length_cons, List.length_nil, Out.ok_bind,
      List.cons_append, List.nil_append, List.getElem?_cons_zero, List.getElem?_cons_succ, h1, h2, h3, h4]
    simp; omega

theorem leval_lt (ds : Bytes) : leval ds < 2 ^ (7 * ds.length) := by
  induction ds with
  | nil => simp [leval]
  | cons b bs ih =>
    simp only [leval, List.length_cons, Nat.mul_succ, Nat.pow_add]
    generalize 2 ^ (7 * bs.length) = X at *
    have : b.toNat % 128 < 128 := by omega
    omega

theorem leval_append (a b : Bytes) : leval (a ++ b) = leval a + 2 ^ (7 * a.length) * leval b := by
  induction a with
  | nil => simp [leval]
  | cons x xs ih =>
    have e : 2 ^ (7 * (xs.length + 1)) = 128 * 2 ^ (7 * xs.length) := by
      rw [Nat.mul_succ, Nat.pow_add, Nat.mul_comm]
    simp only [List.cons_append, leval, ih, List.length_cons, e]
    rw [Nat.mul_add, Nat.mul_assoc]
    omega

theorem decode64Loop_eq (rest : Bytes) (post : Bytes) (pre : Bytes)
    (hlen : (pre ++ post).length ≤ 10) (hpre : pre.length ≤ 9) (hpost : post ≠ []) :
    decode64Loop (pre ++ (post ++ rest)) post.length pre.length (leval pre)
      = .ok (leval (pre ++ post) % 2 ^ 64) := by
  induction post generalizing pre with
  | nil => exact absurd rfl hpost
  | cons b bs ih =>
    have hb : low7 (pre ++ (b :: bs ++ rest)) pre.length = .ok (b.toNat % 128) := by
      simp [low7, byteAt, and7f]
    simp only [List.length_cons, decode64Loop, hb, Out.ok_bind]
    have hlt := leval_lt pre
    rw [or_shift _ _ _ hlt]
    have heq : leval pre + 2 ^ (7 * pre.length) * (b.toNat % 128) = leval (pre ++ [b]) := by
      rw [leval_append]; simp [leval]
    rw [heq]
    cases bs with
    | nil => simp [decode64Loop]
    | cons c cs =>
      have hp : (pre ++ [b]).length ≤ 9 := by
        simp only [List.length_append, List.length_cons] at hlen; simp; omega
      have hlt' : leval (pre ++ [b]) < 2 ^ 64 := by
        have h1 := leval_lt (pre ++ [b])
        have h2 : 2 ^ (7 * (pre ++ [b]).length) ≤ 2 ^ 63 := Nat.pow_le_pow_right (by omega) (by omega)
        omega
      rw [Nat.mod_eq_of_lt hlt']
      have := ih (pre ++ [b]) (by simpa using hlen) hp (by simp)
      simp only [List.append_assoc, List.cons_append, List.nil_append, List.length_append,
        List.length_cons, List.length_nil] at this ⊢
      exact this

theorem decode64_terminated {ds : Bytes} (h : terminated ds) (hl : ds.length ≤ 10) (rest : Bytes) :
    varintDecode64 (ds ++ rest) = .ok (ds.length, leval ds % 2 ^ 64) := by
  unfold varintDecode64
  rw [lengthPacked_terminated h rest 10 hl]
  simp only [Out.ok_bind]
  split
  · rename_i h5
    rw [decode32_terminated h (by omega)]
    have hlt := leval_lt ds
    have h2 : 2 ^ (7 * ds.length) ≤ 2 ^ 28 := Nat.pow_le_pow_right (by omega) (by omega)
    rw [Nat.mod_eq_of_lt (by omega), Nat.mod_eq_of_lt (by omega)]
  · rename_i h5
    match ds, h, hl, h5 with
    | [_], _, _, h5 => simp at h5
    | [_, _], _, _, h5 => simp at h5
    | [_, _, _], _, _, h5 => simp at h5
    | [_, _, _, _], _, _, h5 => simp at h5
    | a :: b :: c :: d :: e :: ds', h, hl, _ =>
      have h1 := or_shift (a.toNat % 128) (b.toNat % 128) 7 (by omega)
      have h2 := or_shift (a.toNat % 128 + 2 ^ 7 * (b.toNat % 128)) (c.toNat % 128) 14 (by omega)
      have h3 := or_shift (a.toNat % 128 + 2 ^ 7 * (b.toNat % 128) + 2 ^ 14 * (c.toNat % 128))
        (d.toNat % 128) 21 (by omega)
      have key := decode64Loop_eq rest (e :: ds') [a, b, c, d] (by simpa using hl) (by simp) (by simp)
      have hv : leval [a, b, c, d] = a.toNat % 128 + 2 ^ 7 * (b.toNat % 128)
          + 2 ^ 14 * (c.toNat % 128) + 2 ^ 21 * (d.toNat % 128) := by
        simp [leval]; omega
      simp only [low7, byteAt, and7f, Out.ok_bind,
        List.cons_append, List.getElem?_cons_zero, List.getElem?_cons_succ, h1, h2, h3]
      rw [← hv]
      simp only [List.length_cons, List.length_nil, List.cons_append, List.nil_append] at key
      simp only [List.length_cons]
      rw [show ds'.length + 1 + 1 + 1 + 1 + 1 - 4 = ds'.length + 1 by omega, key]
      simp

theorem decode64_leb {v : Nat} (h : v < 2 ^ 64) (rest : Bytes) :
    varintDecode64 (leb v ++ rest) = .ok ((leb v).length, v) := by
  rw [decode64_terminated (leb_terminated v) (leb_length_le_10 h), leval_leb, Nat.mod_eq_of_lt h]

theorem decode32_leb {v : Nat} (h : v < 2 ^ 32) (rest : Bytes) :
    varintDecode32 (leb v ++ rest) = .ok ((leb v).length, v) := by
  rw [decode32_terminated (leb_terminated v) (leb_length_le_5 h), leval_leb, Nat.mod_eq_of_lt h]

end Verif
