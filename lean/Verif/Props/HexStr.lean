import Verif.Lemmas.HexStr

/-!
# C74: bytes as hexadecimal text
-/

namespace Verif.Props
open Verif.Spec Verif.HexStr

/-- C74: with room for at least one character, the destination gets two digits for each byte, as many bytes as there is room for
before a NUL, and the NUL; the rest of it keeps what it held, and the number of digits is returned.  Partial: not for a destination
of size 0 (`C74_counterexample`). -/
theorem C74_bytes_partial (src : Bytes) (upper : Bool) (dst : Bytes) (h0 : 0 < dst.length) (h1 : dst.length < 2 ^ 64)
    (h2 : src.length < 2 ^ 63) :
    ∃ t, HexOf upper (src.take ((dst.length - 1) / 2)) t ∧
      bytesToHex src src.length upper dst dst.length = .ok (t ++ 0 :: dst.drop (t.length + 1), t.length) := by
  have hroom : (dst.length + (2 ^ 64 - 1)) % 2 ^ 64 = dst.length - 1 := by omega
  unfold bytesToHex
  simp only [hroom]
  have hm : src.length * 2 % 2 ^ 64 = src.length * 2 := by omega
  rw [hm]
  have key : ∀ m, m ≤ src.length → m * 2 < dst.length → ∃ t, HexOf upper (src.take m) t ∧
      (do let d ← HexStr.hexLoop upper src m 0 dst
          let d ← store d (m * 2) 0
          Out.ok (d, m * 2 % 2 ^ 64)) = .ok (t ++ 0 :: dst.drop (t.length + 1), t.length) := by
    intro m hm1 hm2
    obtain ⟨t, h3, h4, h5⟩ := hexLoop_eq upper src m 0 [] dst (by omega) rfl (by omega)
    refine ⟨t, by simpa using h3, ?_⟩
    simp only [List.nil_append] at h5
    rw [h5]
    simp only [Out.ok_bind]
    have hd : dst.drop (2 * m) = dst[2 * m] :: dst.drop (2 * m + 1) := List.drop_eq_getElem_cons (by omega)
    rw [store, if_pos (by simp; omega), hd, List.set_append_right _ _ (by omega), show m * 2 - t.length = 0 by omega]
    simp only [Out.ok_bind, List.set_cons_zero]
    rw [show m * 2 % 2 ^ 64 = t.length by omega, h4]
  by_cases hc : src.length * 2 > dst.length - 1
  · rw [if_pos hc]
    exact key _ (by omega) (by omega)
  · rw [if_neg hc, List.take_of_length_le (by omega)]
    have := key src.length (Nat.le_refl _) (by omega)
    rwa [List.take_of_length_le (Nat.le_refl _)] at this

/-- C74: a number of 16 bits is written as four digits that stand for it. -/
theorem C74_uint16 (num : Nat) (upper : Bool) (dst : Bytes) (h0 : num < 2 ^ 16) (h1 : 5 ≤ dst.length) (h2 : dst.length < 2 ^ 64) :
    ∃ t, t.length = 4 ∧ hexNumber upper t = some num ∧
      uint16ToHex num upper dst dst.length = .ok (t ++ 0 :: dst.drop 5, 4) := by
  obtain ⟨t, h3, h4⟩ := C74_bytes_partial [UInt8.ofNat (num / 256), UInt8.ofNat num] upper dst (by omega) h2 (by simp)
  rw [List.take_of_length_le (by simp; omega)] at h3
  cases h3 with
  | @cons _ c1 d1 _ _ _ _ a1 a2 a3 h3 =>
    cases h3 with
    | @cons _ c2 d2 _ _ _ _ b1 b2 b3 h3 =>
      cases h3
      refine ⟨[c1, d1, c2, d2], by simp, ?_, by rw [uint16ToHex]; exact h4⟩
      simp only [hexNumber, List.foldl_cons, List.foldl_nil, Option.bind_some, a1, a2, b1, b2, Option.map_some]
      simp only [UInt8.toNat_ofNat'] at a3 b3
      refine congrArg some ?_
      omega

/-- For a destination of size 0 the check is passed by any length, and a byte is written where there is no room for one. -/
theorem C74_counterexample (src : Bytes) (upper : Bool) (h : src.length < 2 ^ 63) :
    bytesToHex src src.length upper [] 0 = .fault .oobWrite := by
  have hroom : (0 + (2 ^ 64 - 1)) % 2 ^ 64 = 2 ^ 64 - 1 := by decide
  unfold bytesToHex
  simp only [hroom]
  rw [if_neg (by omega)]
  cases src with
  | nil => rfl
  | cons b src =>
    obtain ⟨c, d, x, y, e1, e2, -⟩ := byte_digits upper b
    simp only [List.length_cons, HexStr.hexLoop, List.getElem?_cons_zero, byteToHex, e1, Out.ok_bind]
    rfl

/-- Hypotheses and effect: room for one byte of two, room for both, a number. -/
example : bytesToHex [0xab, 0x0c] 2 true [9, 9, 9, 9] 4 = .ok (lit "AB" ++ [0, 9], 2) ∧
    bytesToHex [0xab, 0x0c] 2 false (List.replicate 6 9) 6 = .ok (lit "ab0c" ++ [0, 9], 4) ∧
    uint16ToHex 4660 false (List.replicate 5 9) 5 = .ok (lit "1234" ++ [0], 4) := by decide +kernel

end Verif.Props
