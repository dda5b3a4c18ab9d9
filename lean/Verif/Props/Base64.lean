import Verif.Lemmas.Base64
import Verif.Model.Util

/-!
# C69: base 64
-/

namespace Verif.Props

open Verif.Spec Verif.Base64

/-- C69: however a byte string is cut into blocks, encoding the blocks in turn and ending writes its base 64 text. -/
theorem C69_encode (bs : List Bytes) : ∃ ws, encodeAll bs initE = .ok ws ∧ ws.flatten = b64Text bs.flatten := by
  have h := encodeAll_flatten bs initE
  rw [show initE = ⟨.A, 0⟩ from rfl, encode_whole] at h
  rw [show initE = ⟨.A, 0⟩ from rfl]
  revert h
  cases encodeAll bs ⟨.A, 0⟩ with
  | ok ws => intro h; exact ⟨ws, rfl, Out.ok.inj h⟩
  | _ => intro h; cases h

/-- The text has four characters for every three bytes or part of them: the room the encoder needs. -/
theorem C69_length : ∀ x : Bytes, (b64Text x).length = 4 * ((x.length + 2) / 3)
  | [] => rfl
  | [_] => by simp [b64Text]
  | [_, _] => by simp [b64Text]
  | x :: y :: z :: r => by
    simp only [b64Text, List.length_cons, C69_length r]; omega

/-- C69: however a text is cut into blocks, decoding them in turn gives the bytes its digits stand for; other characters are passed
over.  Partial: the text must not contain `{` (`C69_brace_counterexample`), and every buffer must have room for one byte more than
the characters of its block can stand for (`C69_room_counterexample`). -/
theorem C69_decode_partial (bs : List (Bytes × Bytes))
    (h : ∀ b ∈ bs, (123 : UInt8) ∉ b.1 ∧ (3 * b.1.length + 3) / 4 < b.2.length) :
    ∃ ws, decodeAll bs initD = .ok ws ∧ ws.flatten = b64Read (bs.map (·.1)).flatten := by
  obtain ⟨ws, hw, hf⟩ := decodeAll_spec bs initD 0 (.inl rfl) h
  refine ⟨ws, hw, ?_⟩
  rw [hf, b64Read]
  refine digest_eq _ _ fun v hv => ?_
  obtain ⟨c, _, hc⟩ := List.mem_filterMap.1 hv
  exact b64Value_lt c v hc

/-- C69: what is encoded is decoded to the same bytes, with any cutting into blocks on both sides. -/
theorem C69_round_trip (bs : List Bytes) : ∃ ws, encodeAll bs initE = .ok ws ∧
    ∀ cs : List (Bytes × Bytes), (cs.map (·.1)).flatten = ws.flatten → (∀ c ∈ cs, (3 * c.1.length + 3) / 4 < c.2.length) →
      ∃ vs, decodeAll cs initD = .ok vs ∧ vs.flatten = bs.flatten := by
  obtain ⟨ws, hw, hf⟩ := C69_encode bs
  refine ⟨ws, hw, fun cs hcs hl => ?_⟩
  obtain ⟨vs, hv, he⟩ := C69_decode_partial cs fun c hc =>
    ⟨fun hm => b64Text_plain bs.flatten (by
      rw [← hf, ← hcs]
      exact List.mem_flatten.2 ⟨c.1, List.mem_map.2 ⟨c, hc, rfl⟩, hm⟩), hl c hc⟩
  exact ⟨vs, hv, by rw [he, hcs, hf, b64Read_text]⟩

/-- Five bytes in two blocks; the text is decoded in two blocks with a line break in it. -/
example : encodeAll [[1, 2], [255, 200, 7]] initE = .ok [lit "AQ", lit "L/yA", lit "c="] ∧
    decodeAll [(lit "AQL\n", List.replicate 5 9), (lit "/yAc=", List.replicate 5 9)] initD = .ok [[1, 2], [255, 200, 7]] ∧
    b64Read (lit "AQL\n/yAc=") = [1, 2, 255, 200, 7] ∧
    (∀ b ∈ [(lit "AQL\n", List.replicate 5 (9 : UInt8)), (lit "/yAc=", List.replicate 5 9)],
      (123 : UInt8) ∉ b.1 ∧ (3 * b.1.length + 3) / 4 < b.2.length) := by
  decide +kernel

/-- `base64_encode_value`: the digit of a value below 64, and `=` for a larger one.  Missing: negative values, for which it reads before
its table. -/
theorem C69_encode_value_partial : ∀ v : UInt8, v < 128 →
    encodeValue v = .ok (if v < 64 then b64Digit v.toNat else 61) :=
  u8_all (by decide +kernel)

/-- For every negative `char` it reads before its table. -/
theorem C69_encode_value_counterexample : ∀ v : UInt8, 128 ≤ v → encodeValue v = .fault .oobRead :=
  u8_all (by decide +kernel)

/-- `base64_decode_value`: the value of a digit, -2 for `=`, and -1 for any other character.  Missing: `{`, for which it reads past its
table. -/
theorem C69_decode_value_partial : ∀ c : UInt8, c ≠ 123 →
    decodeValue c = .ok (match b64Value c with | some v => (v : Int) | none => if c = 61 then -2 else -1) :=
  u8_all (by decide +kernel)

example : encodeValue 27 = .ok 98 ∧ encodeValue 64 = .ok 61 ∧ decodeValue 98 = .ok 27 ∧ decodeValue 200 = .ok (-1) := by
  decide +kernel

/-- The character `{` makes the decoder read past the end of its table. -/
theorem C69_brace_counterexample : decodeAll [(lit "{", List.replicate 5 0)] initD = .fault .oobRead := by
  decide +kernel

/-- With a buffer that has just the room for the bytes the decoder reads past the end of the buffer. -/
theorem C69_room_counterexample : b64Read (lit "QUJD") = lit "ABC" ∧
    decodeAll [(lit "QUJD", List.replicate 3 0)] initD = .fault .oobRead := by
  decide +kernel

end Verif.Props
