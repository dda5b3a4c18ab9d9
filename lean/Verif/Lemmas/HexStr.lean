import Verif.Model.HexStr
import Verif.Spec.HexStr
import Verif.Lemmas.Format

/-!
# Lemmas for hexadecimal text
-/

namespace Verif.HexStr
open Verif.Spec

theorem byte_digits (upper : Bool) (b : UInt8) : ∃ c d x y, digit upper ((b >>> 4) &&& 0xf) = .ok c ∧
    digit upper (b &&& 0xf) = .ok d ∧ hexDigit upper c = some x ∧ hexDigit upper d = some y ∧ b.toNat = 16 * x + y := by
  have h : ∀ b : UInt8, (match digit upper ((b >>> 4) &&& 0xf), digit upper (b &&& 0xf) with
      | .ok c, .ok d =>
        match hexDigit upper c, hexDigit upper d with
        | some x, some y => b.toNat == 16 * x + y
        | _, _ => false
      | _, _ => false) = true := by
    refine u8_all ?_
    revert upper
    decide +kernel
  have h := h b
  split at h
  · rename_i c d h1 h2
    split at h
    · rename_i x y h3 h4
      exact ⟨c, d, x, y, h1, h2, h3, h4, by simpa using h⟩
    · cases h
  · cases h

theorem hexLoop_eq (upper : Bool) (src : Bytes) : ∀ (k n : Nat) (pre rest : Bytes), n + k ≤ src.length → pre.length = n * 2 →
    2 * k ≤ rest.length → ∃ t, HexOf upper ((src.drop n).take k) t ∧ t.length = 2 * k ∧
      hexLoop upper src k n (pre ++ rest) = .ok (pre ++ t ++ rest.drop (2 * k))
  | 0, n, pre, rest, _, _, _ => ⟨[], by simpa using .nil, rfl, by simp [hexLoop]⟩
  | k + 1, n, pre, rest, h1, h2, h3 => by
    have hn : n < src.length := by omega
    obtain ⟨c, d, x, y, e1, e2, e3, e4, e5⟩ := byte_digits upper src[n]
    obtain ⟨r0, r1, rest, rfl⟩ : ∃ r0 r1 r, rest = r0 :: r1 :: r := by
      match rest, h3 with
      | r0 :: r1 :: r, _ => exact ⟨r0, r1, r, rfl⟩
      | [_], h => simp at h; omega
      | [], h => simp at h
    obtain ⟨t, h4, h5, h6⟩ := hexLoop_eq upper src k (n + 1) (pre ++ [c, d]) rest (by omega) (by simp; omega) (by simp at h3; omega)
    refine ⟨c :: d :: t, ?_, by simp; omega, ?_⟩
    · rw [List.drop_eq_getElem_cons hn, List.take_succ_cons]
      exact .cons e3 e4 e5 h4
    · have s1 : store (pre ++ r0 :: r1 :: rest) (n * 2) c = .ok (pre ++ c :: r1 :: rest) := by
        rw [store, if_pos (by simp; omega), List.set_append_right _ _ (by omega), h2]
        simp
      have s2 : store (pre ++ c :: r1 :: rest) (n * 2 + 1) d = .ok (pre ++ c :: d :: rest) := by
        rw [store, if_pos (by simp; omega), List.set_append_right _ _ (by omega), h2]
        simp
      rw [hexLoop, List.getElem?_eq_getElem hn]
      simp only [byteToHex, e1, e2, Out.ok_bind, s1, s2]
      rw [show pre ++ c :: d :: rest = pre ++ [c, d] ++ rest by simp, h6]
      simp [show 2 * (k + 1) = 2 * k + 2 by omega]

end Verif.HexStr
