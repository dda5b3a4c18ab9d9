import Verif.Lemmas.Crc32c
import Verif.Model.Util

/-!
# C75: the checksum CRC-32C
-/

namespace Verif.Props
open Verif.Spec Verif.Crc32c

theorem castagnoli_eq (x : Bytes) : castagnoli x = register (2 ^ 32 - 1) x ^^^ (2 ^ 32 - 1) := by
  rw [castagnoli, feed_message, register]

/-- C75: at any address, the tables give the checksum of the chunk, only the chunk is read, and no word at an
address that is not divisible by four. -/
theorem C75_slicing (addr : Nat) (x rest : Bytes) : crcSlicing addr (x ++ rest) x.length = .ok (castagnoli x) := by
  have head : ∀ (x : Bytes) (pre : Bytes) (c : Nat), ∃ y z, x = y ++ z ∧ (z ≠ [] → (addr + pre.length + y.length) % 4 = 0) ∧
      headLoop addr (pre ++ (x ++ rest)) x.length pre.length c = .ok (pre.length + y.length, z.length, register c y) := by
    intro x
    induction x with
    | nil => exact fun pre c => ⟨[], [], rfl, by simp, by simp [headLoop, register, shifts, lowFirst]⟩
    | cons b x ih =>
      intro pre c
      rw [List.length_cons, headLoop]
      split
      · obtain ⟨y, z, h1, h0, h2⟩ := ih (pre ++ [b]) (register c [b])
        refine ⟨b :: y, z, by rw [h1]; rfl, fun h => by have := h0 h; simp at this ⊢; omega, ?_⟩
        rw [List.append_assoc, List.singleton_append, List.length_append, List.length_singleton] at h2
        rw [List.cons_append, byteStep_eq]
        simp only [Out.ok_bind]
        rw [h2, ← register_append, List.length_cons, List.singleton_append, Nat.add_assoc, Nat.add_comm 1]
      · next hm =>
        exact ⟨[], b :: x, rfl, fun _ => by
          have h3 := Nat.and_two_pow_sub_one_eq_mod (addr + pre.length) 2
          simp only [ne_eq, Decidable.not_not] at hm
          simp at h3 ⊢
          omega, by simp [register, shifts, lowFirst]⟩
  obtain ⟨y, z, rfl, h0, h1⟩ := head x [] 0xffffffff
  simp only [List.nil_append, List.length_nil, Nat.zero_add] at h1
  unfold crcSlicing
  rw [h1]
  simp only [Out.ok_bind]
  have hz : z = z.take (8 * (z.length / 8)) ++ z.drop (8 * (z.length / 8)) := (List.take_append_drop _ _).symm
  generalize ha : z.take (8 * (z.length / 8)) = a at hz
  generalize hb : z.drop (8 * (z.length / 8)) = b at hz
  have la : a.length = 8 * (z.length / 8) := by rw [← ha, List.length_take]; omega
  have lb : b.length = z.length &&& 7 := by
    rw [← hb, List.length_drop, show z.length &&& 7 = z.length % 2 ^ 3 from Nat.and_two_pow_sub_one_eq_mod _ 3]; omega
  have q := quadLoop_eq (addr := addr) (z.length / 8) a y (b ++ rest) (c := register 0xffffffff y) (fun hn => by
    have := h0 (by rintro rfl; simp at hn)
    simpa using this) la (register_lt (by decide) y)
  have t := tailLoop_eq b (y ++ a) rest (register (register 0xffffffff y) a)
  rw [List.length_append, la, lb] at t
  have e : y ++ z ++ rest = y ++ (a ++ (b ++ rest)) := by rw [hz]; simp only [List.append_assoc]
  rw [e, q]
  simp only [Out.ok_bind]
  rw [List.append_assoc] at t
  rw [t]
  simp only [Out.ok_bind]
  rw [castagnoli_eq, ← register_append, ← register_append, ← hz]

/-- C75: the instructions give the checksum of the chunk, and only the chunk is read. -/
theorem C75_sse42 (x rest : Bytes) : crcSse42 (x ++ rest) x.length = .ok (castagnoli x) := by
  have hz : x = x.take (8 * (x.length / 8)) ++ x.drop (8 * (x.length / 8)) := (List.take_append_drop _ _).symm
  generalize ha : x.take (8 * (x.length / 8)) = a at hz
  generalize hb : x.drop (8 * (x.length / 8)) = b at hz
  have la : a.length = 8 * (x.length / 8) := by rw [← ha, List.length_take]; omega
  have hm : x.length &&& 7 = x.length % 8 := Nat.and_two_pow_sub_one_eq_mod _ 3
  have lb : b.length = x.length &&& 7 := by rw [← hb, List.length_drop, hm]; omega
  have q := sseLoop_eq (x.length / 8) a [] (b ++ rest) (c := 0xffffffff) la
  have t := sseTail_eq a b rest (register 0xffffffff a) (by rw [lb, hm]; omega)
  rw [la, lb] at t
  have e : x ++ rest = a ++ (b ++ rest) := by rw [hz]; simp only [List.append_assoc]
  unfold crcSse42
  rw [e]
  simp only [List.nil_append, List.length_nil] at q
  rw [q]
  simp only [Out.ok_bind]
  rw [t]
  simp only [Out.ok_bind]
  rw [castagnoli_eq, ← register_append, ← hz]

/-- C75: whichever implementation the processor gets, and wherever the chunk lies, `my_crc32c` returns its CRC-32C, a number of 32
bits. -/
theorem C75_checksum (sse42 : Bool) (addr : Nat) (x rest : Bytes) :
    crc32c sse42 addr (x ++ rest) x.length = .ok (castagnoli x) ∧ castagnoli x < 2 ^ 32 := by
  refine ⟨?_, ?_⟩
  · cases sse42
    · exact C75_slicing addr x rest
    · exact C75_sse42 x rest
  · rw [castagnoli_eq]
    exact Nat.xor_lt_two_pow (register_lt (by decide) x) (by decide)

/-- C75: the checksum changes when anything is changed within four bytes that follow each other. -/
theorem C75_detects (pre x y post : Bytes) (hl : x.length = y.length) (h4 : x.length ≤ 4) (hne : x ≠ y) :
    castagnoli (pre ++ x ++ post) ≠ castagnoli (pre ++ y ++ post) := by
  intro h
  rw [castagnoli_eq, castagnoli_eq] at h
  have h := xor_cancel_right h
  simp only [register_append] at h
  generalize hc : register (2 ^ 32 - 1) pre = c at h
  have hc2 : c < 2 ^ 32 := hc ▸ register_lt (by decide) pre
  have back : ∀ {n a b : Nat}, a < 2 ^ 32 → b < 2 ^ 32 → shifts n a = shifts n b → a = b := by
    intro n a b ha hb h
    apply eq_of_xor_zero
    apply shifts_zero n (Nat.xor_lt_two_pow ha hb)
    rw [shifts_xor, h, Nat.xor_self]
  have small : ∀ {z : Bytes}, z.length ≤ 4 → lowFirst z < 2 ^ 32 := fun {z} hz =>
    Nat.lt_of_lt_of_le (lowFirst_lt z) (Nat.pow_le_pow_right (by decide) (by omega))
  have step : register c x = register c y := by
    generalize h1 : register c x = d at h
    generalize h2 : register c y = e at h
    have hd : d < 2 ^ 32 := h1 ▸ register_lt hc2 x
    have he : e < 2 ^ 32 := h2 ▸ register_lt hc2 y
    have hp : shifts (8 * post.length) (d ^^^ e) = 0 := by
      rw [register, register, shifts_xor, shifts_xor] at h
      rw [shifts_xor, xor_cancel_right h, Nat.xor_self]
    exact eq_of_xor_zero (shifts_zero _ (Nat.xor_lt_two_pow hd he) hp)
  rw [register, register, hl] at step
  have := back (Nat.xor_lt_two_pow hc2 (small h4)) (Nat.xor_lt_two_pow hc2 (small (hl ▸ h4))) step
  exact hne (lowFirst_inj hl (xor_cancel_left this))

/-- The check value of CRC-32C, from both implementations and at two alignments; hypotheses of `C75_detects`. -/
example : castagnoli (lit "123456789") = 0xE3069283 ∧ crc32c true 0 (lit "123456789") 9 = .ok 0xE3069283 ∧
    crc32c false 0 (lit "123456789") 9 = .ok 0xE3069283 ∧ crc32c false 3 (lit "123456789") 9 = .ok 0xE3069283 ∧
    ([1, 2, 3] : Bytes).length = ([1, 2, 4] : Bytes).length ∧ ([1, 2, 3] : Bytes) ≠ [1, 2, 4] := by decide +kernel

end Verif.Props
