import Verif.Lemmas.Varint

/-!
# C01, C02: variable-length integers

Independent specification: `Spec.leb` (minimal base-128 numeral) and `Spec.leval`.
-/

namespace Verif.Props
open Verif Verif.Spec

/-- C01 (64 bit): what `varint_encode64` writes, `varint_decode64` reads back, consuming exactly
those bytes, whatever follows. -/
theorem C01_varint64_roundtrip (v : Nat) (h : v < 2 ^ 64) (rest : Bytes) :
    varintDecode64 (varintEncode64 v ++ rest) = .ok ((varintEncode64 v).length, v) := by
  rw [encode64_eq_leb]; exact decode64_leb h rest

example : varintDecode64 (varintEncode64 (2 ^ 63 + 5) ++ [0xff, 0x80]) = .ok (10, 2 ^ 63 + 5) := by
  decide +kernel

/-- C01 (32 bit). -/
theorem C01_varint32_roundtrip (v : Nat) (h : v < 2 ^ 32) (rest : Bytes) :
    varintDecode32 (varintEncode32 v ++ rest) = .ok ((varintEncode32 v).length, v) := by
  rw [encode32_eq_leb h]; exact decode32_leb h rest

example : varintDecode32 (varintEncode32 65535 ++ [0x80]) = .ok (3, 65535) := by decide +kernel

/-- C01 (decoder against the format): every terminated digit string of at most 10 bytes is read as
the number it denotes (modulo 2^64), also non-minimal ones. -/
theorem C01_decode64_value (ds rest : Bytes) (h : terminated ds) (hl : ds.length ≤ 10) :
    varintDecode64 (ds ++ rest) = .ok (ds.length, leval ds % 2 ^ 64) :=
  decode64_terminated h hl rest

example : varintDecode64 ([0x85, 0x80, 0x00] ++ [7]) = .ok (3, 5) := by decide +kernel

/-- C02: encodings are self-delimiting: equal concatenations have equal first integers and equal
remainders (hence no encoding is a proper prefix of another, and encodings are injective). -/
theorem C02_varint_prefix_free (a b : Nat) (s t : Bytes)
    (h : varintEncode64 a ++ s = varintEncode64 b ++ t) : a = b ∧ s = t := by
  rw [encode64_eq_leb, encode64_eq_leb] at h
  obtain ⟨h1, h2⟩ := terminated_prefix_eq (leb_terminated a) (leb_terminated b) h
  exact ⟨leb_inj h1, h2⟩

example : varintEncode64 300 ++ [1, 2] ≠ varintEncode64 44 ++ [2, 1, 2] := by decide +kernel

/-- C02: the announced length is the encoded length, at most 10 bytes; both writers agree on 32-bit
values, which take at most 5 bytes. -/
theorem C02_varint_length (v : Nat) :
    (varintEncode64 v).length = varintLength v
    ∧ (v < 2 ^ 64 → varintLength v ≤ 10)
    ∧ (v < 2 ^ 32 → varintEncode32 v = varintEncode64 v ∧ varintLength v ≤ 5) := by
  refine ⟨?_, ?_, ?_⟩
  · rw [encode64_eq_leb, leb_length]
  · intro h; rw [← leb_length]; exact leb_length_le_10 h
  · intro h; rw [encode32_eq_leb h, encode64_eq_leb, ← leb_length]
    exact ⟨rfl, leb_length_le_5 h⟩

example : varintLength (2 ^ 64 - 1) = 10 ∧ varintLength (2 ^ 32 - 1) = 5 := by decide +kernel

end Verif.Props
