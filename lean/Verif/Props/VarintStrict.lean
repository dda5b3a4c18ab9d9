import Verif.Model.VarintStrict
import Verif.Props.Varint

/-!
# C01 in the terms of the C standard
-/

namespace Verif.Props
open Verif Verif.Spec

/-- C01 (32 bit, shifts as in the C standard): numbers below 2^31 are read back as written. -/
theorem C01_strict (v : Nat) (h : v < 2 ^ 31) (rest : Bytes) :
    varintDecode32Strict (varintEncode32 v ++ rest) = .ok ((varintEncode32 v).length, v) := by
  have e := C01_varint32_roundtrip v (by omega) rest
  rw [varintDecode32Strict, e]
  dsimp only [bind, Out.bind]
  by_cases h28 : v < 2 ^ 28
  · have hl : ¬ (varintEncode32 v).length > 4 := by
      unfold varintEncode32
      split
      · simp
      · split
        · simp
        · split
          · simp
          · simp
    rw [if_neg hl]
  · have hv : varintEncode32 v = [UInt8.ofNat (v ||| 128), UInt8.ofNat ((v >>> 7) ||| 128),
        UInt8.ofNat ((v >>> 14) ||| 128), UInt8.ofNat ((v >>> 21) ||| 128), UInt8.ofNat (v >>> 28)] := by
      unfold varintEncode32
      rw [if_neg (by omega), if_neg (by omega), if_neg (by omega), if_neg h28]
    rw [hv]
    have hb : (UInt8.ofNat (v >>> 28)).toNat = v / 2 ^ 28 := by
      rw [Nat.shiftRight_eq_div_pow]
      have : v / 2 ^ 28 < 256 := by omega
      simpa using Nat.mod_eq_of_lt this
    have hlt : ¬ (UInt8.ofNat (v >>> 28)).toNat * 2 ^ 28 ≥ 2 ^ 31 := by rw [hb]; omega
    simp only [byteAt, List.cons_append, List.getElem?_cons_succ, List.getElem?_cons_zero, List.length_cons,
      List.length_nil]
    rw [if_pos (by omega), if_neg hlt]

example : varintDecode32Strict (varintEncode32 (2 ^ 31 - 1) ++ [0x80]) = .ok (5, 2 ^ 31 - 1) := by decide +kernel

/-- C01 (32 bit) is false in the terms of the C standard for the numbers from 2^31 on: reading them back shifts an
`int` beyond its range.  (gcc defines the result, which is then that of `C01_varint32_roundtrip`.) -/
theorem C01_strict_counterexample (v : Nat) (h : 2 ^ 31 ≤ v) (h' : v < 2 ^ 32) (rest : Bytes) :
    varintDecode32Strict (varintEncode32 v ++ rest) = .fault .badShift := by
  have e := C01_varint32_roundtrip v h' rest
  rw [varintDecode32Strict, e]
  dsimp only [bind, Out.bind]
  have hv : varintEncode32 v = [UInt8.ofNat (v ||| 128), UInt8.ofNat ((v >>> 7) ||| 128),
      UInt8.ofNat ((v >>> 14) ||| 128), UInt8.ofNat ((v >>> 21) ||| 128), UInt8.ofNat (v >>> 28)] := by
    unfold varintEncode32
    rw [if_neg (by omega), if_neg (by omega), if_neg (by omega), if_neg (by omega)]
  rw [hv]
  have hb : (UInt8.ofNat (v >>> 28)).toNat = v / 2 ^ 28 := by
    rw [Nat.shiftRight_eq_div_pow]
    have : v / 2 ^ 28 < 256 := by omega
    simpa using Nat.mod_eq_of_lt this
  have hlt : (UInt8.ofNat (v >>> 28)).toNat * 2 ^ 28 ≥ 2 ^ 31 := by rw [hb]; omega
  simp only [byteAt, List.cons_append, List.getElem?_cons_succ, List.getElem?_cons_zero, List.length_cons,
    List.length_nil]
  rw [if_pos (by omega), if_pos hlt]

example : varintDecode32Strict (varintEncode32 (2 ^ 32 - 1) ++ [7]) = .fault .badShift := by decide +kernel

end Verif.Props
