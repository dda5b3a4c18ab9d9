import Verif.Lemmas.Base32
import Verif.Model.Util

/-!
# C70: base 32
-/

namespace Verif.Props

open Verif.Spec Verif.Base32

/-- C70: the encoder writes the base 32 text of the data, up to the room given.  Partial: not for empty data
(`C70_empty_counterexample`), and not when two bytes are left after the groups of five (`C70_two`). -/
theorem C70_encode_partial (x : Bytes) (size : Nat) (h0 : x ≠ []) (h2 : x.length % 5 ≠ 2) :
    encode size x = (b32Text x).take size := by
  rw [encode_eq, written, if_neg h0, if_neg h2]

/-- When two bytes are left after the groups of five the last digit of the text is not written. -/
theorem C70_two (x : Bytes) (size : Nat) (h2 : x.length % 5 = 2) : encode size x = ((b32Text x).dropLast).take size := by
  rw [encode_eq, written, if_neg (by rintro rfl; simp at h2), if_pos h2]

/-- For empty data, whose text is empty, eight characters are written. -/
theorem C70_empty_counterexample : b32Text [] = [] ∧ encode 100 [] = lit "00000000" := by decide +kernel

/-- Different data with the same text: nothing can decode it. -/
theorem C70_two_counterexample : encode 100 [0, 0] = encode 100 [0, 1] ∧ b32Text [0, 0] ≠ b32Text [0, 1] := by decide +kernel

/-- C70: a text of digits, in either case, is decoded to the bytes they stand for, up to the room given. -/
theorem C70_decode (t : Bytes) (vs : List Nat) (size : Nat) (h : t.map b32Value = vs.map some) :
    decode size t = .ok ((b32Bytes vs).take size) := by
  by_cases ht : t = []
  · subst ht
    have : vs = [] := by cases vs with
      | nil => rfl
      | cons => simp at h
    subst this
    simp [decode, decodeLoop, b32Bytes]
  · have := decodeLoop_eq t vs size [] h (by simp) (by simp) ht
    simpa [decode] using this

/-- C70: whatever the text, nothing is written past the room given, and the only other outcome is a refusal. -/
theorem C70_room (t : Bytes) (size : Nat) : decode size t = .fail ∨ ∃ r, decode size t = .ok r ∧ r.length ≤ size :=
  decodeLoop_room t size [] false

/-- C70: a text with a character that is neither a digit nor padding is refused, when the digits before it do not fill the
destination. -/
theorem C70_refused (t : Bytes) (vs : List Nat) (c : UInt8) (r : Bytes) (size : Nat) (h : t.map b32Value = vs.map some)
    (hc : b32Value c = none) (hp : c ≠ 61) (hs : 5 * (vs.length / 8) < size) : decode size (t ++ c :: r) = .fail := by
  refine decodeLoop_bad t vs size [] c r h (by simp) hc hp ?_
  simpa using hs

/-- C70: the text of a byte string is decoded to it, with or without padding. -/
theorem C70_read (x : Bytes) (k : Nat) (h : x ≠ []) : decode x.length (b32Text x ++ List.replicate k 61) = .ok x := by
  obtain ⟨e, l⟩ := read_text x
  cases k with
  | zero => rw [List.replicate_zero, List.append_nil, C70_decode _ _ _ (text_digits x), e]
  | succ k =>
    have hne : (b32Text x).filterMap b32Value ≠ [] := by
      intro h0
      have := text_digits x
      rw [h0, List.map_nil, List.map_eq_nil_iff] at this
      exact b32Text_ne x h this
    have := decodeLoop_pad (b32Text x) _ x.length [] (List.replicate k 61) (text_digits x) (by simp) (by simp) (by simpa using hne)
      (by simpa using l)
    rw [List.replicate_succ, decode, this, List.map_nil, List.nil_append, e]

/-- C70: what is encoded is decoded to the same bytes.  Partial: as `C70_encode_partial`. -/
theorem C70_round_trip_partial (x : Bytes) (size : Nat) (h0 : x ≠ []) (h2 : x.length % 5 ≠ 2) (hs : (b32Text x).length ≤ size) :
    decode x.length (encode size x) = .ok x := by
  rw [C70_encode_partial x size h0 h2, List.take_of_length_le hs]
  simpa using C70_read x 0 h0

/-- Six bytes; the digits in either case, with padding, cut short, and with a character that is no digit. -/
example : encode 100 [1, 2, 255, 200, 7, 250] = lit "041FVI07V8" ∧ b32Text [1, 2, 255, 200, 7, 250] = lit "041FVI07V8" ∧
    [1, 2, 255, 200, 7, 250].length % 5 ≠ 2 ∧ encode 3 [1, 2, 255, 200, 7, 250] = lit "041" ∧
    decode 6 (lit "041fvi07v8") = .ok [1, 2, 255, 200, 7, 250] ∧ decode 6 (lit "041FVI07V8======") = .ok [1, 2, 255, 200, 7, 250] ∧
    decode 3 (lit "041FVI07V8") = .ok [1, 2, 255] ∧ decode 6 (lit "041FVI07W8") = .fail ∧ b32Value 87 = none ∧
    (lit "041fvi07").map b32Value = [0, 4, 1, 15, 31, 18, 0, 7].map some := by
  decide +kernel

/-- Seven bytes: two are left after the group of five. -/
example : b32Text [1, 2, 255, 200, 7, 250, 255] = lit "041FVI07VBVG" ∧ encode 100 [1, 2, 255, 200, 7, 250, 255] = lit "041FVI07VBV" := by
  decide +kernel

end Verif.Props
