import Verif.Lemmas.Format

/-!
# Numbers, hexadecimal and JSON strings (C37, C38, C40)
-/

namespace Verif.Props
open Spec

/-! ## C38: numbers -/

theorem numval_pos {s : Bytes} (hd : ∀ c ∈ s, IsDigit c) (h : s.head? ≠ some 48) (hn : s ≠ []) : 0 < numval s := by
  obtain ⟨k, hk⟩ : ∃ k, s.length = k := ⟨_, rfl⟩
  induction k generalizing s with
  | zero => exact absurd (List.length_eq_zero_iff.1 hk) hn
  | succ k ih =>
    obtain ⟨p, x, rfl, hp⟩ := snoc_of_length hk
    rw [numval_append]
    cases p with
    | nil =>
      have := hd x (by simp)
      unfold IsDigit at this
      have h2 : x.toNat ≠ 48 := by
        intro h2
        apply h
        simp only [List.nil_append, List.head?_cons, Option.some.injEq]
        exact UInt8.toNat_inj.1 h2
      omega
    | cons y p =>
      have := ih (s := y :: p) (fun c hc => hd c (List.mem_append_left _ hc)) (by simpa using h) (by simp) hp
      omega

/-- There is only one canonical numeral of a number. -/
theorem numeral_unique {n : Nat} {s : Bytes} (h : Numeral s n) : s = digitsK (countDigits n) n := by
  obtain ⟨k, hk⟩ : ∃ k, s.length = k := ⟨_, rfl⟩
  induction k generalizing s n with
  | zero => exact absurd (List.length_eq_zero_iff.1 hk) h.nonempty
  | succ k ih =>
    obtain ⟨p, x, rfl, hp⟩ := snoc_of_length hk
    have hx := h.digits x (by simp)
    unfold IsDigit at hx
    have hv := h.value
    rw [numval_append] at hv
    have hdc : x = digitChar n := by
      apply UInt8.toNat_inj.1; rw [digitChar_toNat]; omega
    cases p with
    | nil =>
      have h0 : numval ([] : Bytes) = 0 := rfl
      rw [h0] at hv
      have : countDigits n = 1 := by unfold countDigits; rw [if_pos (by omega)]
      rw [this, hdc]; rfl
    | cons y p =>
      have hdg : ∀ c ∈ y :: p, IsDigit c := fun c hc => h.digits c (List.mem_append_left _ hc)
      have hhd : (y :: p).head? ≠ some 48 := by
        have := h.noLeadingZero (by simp)
        simpa using this
      have hpos := numval_pos hdg hhd (by simp)
      have hq : numval (y :: p) = n / 10 := by omega
      have hnum : Numeral (y :: p) (n / 10) := ⟨by simp, hdg, fun _ => hhd, hq⟩
      have hc : countDigits n = countDigits (n / 10) + 1 := by
        conv => lhs; unfold countDigits
        rw [if_neg (by omega)]
      rw [hc, digitsK, ← ih hnum hp, hdc]

/-- C38, uniqueness.  Two canonical numerals of one number are the same string. -/
theorem C38_unique {n : Nat} {s t : Bytes} (hs : Numeral s n) (ht : Numeral t n) : s = t := by
  rw [numeral_unique hs, numeral_unique ht]

/-- C38, JSON.  Whatever the 32-byte buffer held before, exactly the canonical decimal numeral of the
number is appended, and no byte outside the buffer is written. -/
theorem C38_json {n : Nat} (hn : n < 2 ^ 64) {buf : Bytes} (hb : buf.length = 32) (u : Bytes) :
    ∃ s, appendJsonValueInt buf u n = .ok (u ++ s) ∧ Numeral s n ∧ s.length ≤ 20 := by
  have hc : countDigits n ≤ 20 := countDigits_le (by decide) (Nat.lt_trans hn (by decide))
  refine ⟨digitsK (countDigits n) n, ?_, numeral_digits n, by rw [digitsK_length]; exact hc⟩
  unfold appendJsonValueInt
  rw [vnumToStr_eq (by omega)]
  simp only [Out.ok_bind]
  rw [List.take_append_of_le_length (by rw [digitsK_length]; omega), List.take_of_length_le (by rw [digitsK_length]; omega)]

/-- C38, `vnum_to_str`: the numeral, terminated by a NUL, in a buffer that has room for both. -/
theorem C38_vnum {n : Nat} {buf : Bytes} (hb : 21 ≤ buf.length) (hn : n < 2 ^ 64) :
    ∃ k buf', vnumToStr n buf = .ok (k, buf') ∧ Numeral (buf'.take k) n ∧ buf'[k]? = some 0 ∧
      buf'.length = buf.length := by
  have hc : countDigits n ≤ 20 := countDigits_le (by decide) (Nat.lt_trans hn (by decide))
  refine ⟨_, _, vnumToStr_eq (by omega), ?_, ?_, ?_⟩
  · rw [List.take_append_of_le_length (by rw [digitsK_length]; omega),
      List.take_of_length_le (by rw [digitsK_length]; omega)]
    exact numeral_digits n
  · rw [List.getElem?_append_right (by rw [digitsK_length]; omega), digitsK_length]; simp
  · simp [digitsK_length]; omega

/-- C38, `my_uint64_to_str`.  In a buffer with room for the numeral and the NUL, the text from `*start` on
is the canonical numeral, NUL-terminated at the end of the buffer; the bytes before the buffer
(`pre`), behind it (`post`) and before `*start` are left alone. -/
theorem C38_uint64 {n : Nat} {pre dst post : Bytes} (hl : 2 ≤ dst.length) (hn : n < 10 ^ (dst.length - 1)) :
    ∃ start k s, myUint64ToStr n (pre ++ (dst ++ post)) pre.length dst.length =
        .ok (start, k, pre ++ (dst.take start ++ s ++ 0 :: post)) ∧
      Numeral s n ∧ s.length = k ∧ start + k + 1 = dst.length := by
  obtain ⟨m, x, rfl, hm⟩ := snoc_of_length (l := dst) (k := dst.length - 1) (by omega)
  simp only [List.length_append, List.length_singleton, Nat.add_sub_cancel] at hn hm hl
  have hc : countDigits n ≤ m.length := countDigits_le (by omega) hn
  have := myUint64ToStr_eq n (pre := pre) (post := post) (x := x) (n := m.length) (by omega) rfl
  simp only [Nat.min_eq_left hc] at this
  rw [List.append_assoc, List.singleton_append]
  simp only [List.length_append, List.length_singleton]
  refine ⟨m.length - countDigits n, _, _, ?_, numeral_digits n, digitsK_length _ _, by omega⟩
  rw [this, List.take_append_of_le_length (by omega), List.append_assoc]

/-- The largest number fills twenty digits; zero one. -/
example : (2 ^ 64 - 1 < 2 ^ 64 ∧ appendJsonValueInt (List.replicate 32 7) [58] (2 ^ 64 - 1) =
      .ok [58, 49, 56, 52, 52, 54, 55, 52, 52, 48, 55, 51, 55, 48, 57, 53, 53, 49, 54, 49, 53]) ∧
    appendJsonValueInt (List.replicate 32 7) [] 0 = .ok [48] ∧
    myUint64ToStr 905 ([1, 2] ++ ([7, 7, 7, 7, 7] ++ [8])) 2 5 = .ok (1, 3, [1, 2, 7, 57, 48, 53, 0, 8]) := by
  decide +kernel

/-! ## C40: hexadecimal -/

/-- C40, reading.  A string is accepted with the bytes `bs` exactly when it is not empty and writes `bs`
in hexadecimal. -/
theorem C40_decode (s bs : Bytes) : hexDecode s = .ok bs ↔ s ≠ [] ∧ Hex s bs := by
  unfold hexDecode
  constructor
  · intro h
    split at h
    · cases h
    · next hl =>
      refine ⟨fun h0 => hl (.inl (by simp [h0])), (hexLoop_iff bs s).1 h⟩
  · rintro ⟨h0, h⟩
    have hl := hex_length h
    have : s.length ≠ 0 := fun h => h0 (List.length_eq_zero_iff.1 h)
    rw [if_neg (by omega)]
    exact (hexLoop_iff bs s).2 h

/-- C40, acceptance.  Accepted are exactly the non-empty strings of even length made of hexadecimal
digits; all others fail, without fault. -/
theorem C40_accept (s : Bytes) :
    ((∃ bs, hexDecode s = .ok bs) ↔ s ≠ [] ∧ s.length % 2 = 0 ∧ ∀ c ∈ s, ∃ v, IsHex c v) ∧
    ((∀ bs, hexDecode s ≠ .ok bs) → hexDecode s = .fail) := by
  refine ⟨⟨?_, ?_⟩, ?_⟩
  · rintro ⟨bs, h⟩
    obtain ⟨h0, h⟩ := (C40_decode s bs).1 h
    exact ⟨h0, by rw [hex_length h]; omega, hex_chars h⟩
  · rintro ⟨h0, hl, hc⟩
    obtain ⟨bs, h⟩ := hex_exists s hl hc
    exact ⟨bs, (C40_decode s bs).2 ⟨h0, h⟩⟩
  · intro h
    cases hr : hexDecode s with
    | ok bs => exact absurd hr (h bs)
    | fail => rfl
    | fault f =>
      unfold hexDecode at hr
      split at hr
      · cases hr
      · exact absurd hr (hexLoop_fault s f)

/-- C40, round trip.  What `fmt_hex_str` prints for a non-empty byte string is read back as the same
bytes. -/
theorem C40_roundtrip {bs : Bytes} (h : bs ≠ []) : hexDecode (fmtHexStr [] bs) = .ok bs := by
  refine (C40_decode _ _).2 ⟨fun h0 => h ?_, fmtHex_hex bs⟩
  have := hex_length (fmtHex_hex bs)
  rw [h0] at this
  exact List.length_eq_zero_iff.1 (by simp at this; omega)

/-- Mixed case is read; printing uses lower case. -/
example : hexDecode [100, 69, 48, 57] = .ok [0xde, 0x09] ∧ Hex [100, 69, 48, 57] [0xde, 0x09] ∧
    fmtHexStr [] [0xde, 0x09] = [100, 101, 48, 57] ∧ hexDecode [100, 71] = .fail ∧ hexDecode [100] = .fail := by
  refine ⟨by decide +kernel, .cons (by decide +kernel) (by decide +kernel)
    (.cons (by decide +kernel) (by decide +kernel) .nil), by decide +kernel, by decide +kernel, by decide +kernel⟩

/-! ## C37: JSON strings -/

/-- C37.  The text appended for a byte string starts with a quote, and a JSON reader that starts behind it
recovers exactly the string and stops exactly behind the appended text. -/
theorem C37_string (u s rest : Bytes) :
    ∃ t, appendJsonValueString u s = u ++ 34 :: t ∧ jsonString (t ++ rest) = some (s, rest) := by
  refine ⟨_, valueString_eq u s, ?_⟩
  rw [List.append_assoc]
  exact jsonString_escaped s rest

/-- C37.  No control character appears in the output. -/
theorem C37_printable (s : Bytes) : ∀ c ∈ appendJsonStringEscaped [] s, 32 ≤ c.toNat := by
  intro c hc
  rw [escaped_eq, List.nil_append, List.mem_flatMap] at hc
  obtain ⟨x, -, hx⟩ := hc
  exact escOf_printable x c hx

/-- C37.  Every quote and backslash of the string is preceded by a backslash of its own, and no other
quote or backslash appears except to introduce an escape: the output is the concatenation, byte by
byte, of texts that are either the byte itself (neither quote nor backslash) or start with a
backslash followed by a non-control character. -/
theorem C37_bytewise (s : Bytes) :
    ∃ f : UInt8 → Bytes, appendJsonStringEscaped [] s = s.flatMap f ∧
      ∀ c, (f c = [c] ∧ c ≠ 34 ∧ c ≠ 92) ∨ (∃ x t, f c = 92 :: x :: t ∧ ∀ y ∈ t, y ≠ 34 ∧ y ≠ 92) := by
  refine ⟨escOf, by rw [escaped_eq]; rfl, fun c => ?_⟩
  rcases escOf_cases c with ⟨-, h2, h3, h⟩ | ⟨x, h, -⟩ | ⟨a, b, va, vb, h, ha, hb, -, -⟩
  · exact .inl ⟨h, h2, h3⟩
  · exact .inr ⟨x, [], h, by simp⟩
  · refine .inr ⟨117, [48, 48, a, b], h, ?_⟩
    have hne : ∀ {y : UInt8} {v : Nat}, hexVal y = some v → y ≠ 34 ∧ y ≠ 92 := by
      intro y v hy
      constructor <;> (rintro rfl; simp [hexVal] at hy)
    intro y hy
    simp only [List.mem_cons, List.not_mem_nil, or_false] at hy
    rcases hy with rfl | rfl | rfl | rfl
    · decide
    · decide
    · exact hne ha
    · exact hne hb

/-- A quote, a backslash, a line feed and a control character. -/
example : appendJsonValueString [58] [97, 34, 92, 10, 1, 200] =
    [58, 34, 97, 92, 34, 92, 92, 92, 110, 92, 117, 48, 48, 48, 49, 200, 34] ∧
    jsonString ([97, 92, 34, 92, 92, 92, 110, 92, 117, 48, 48, 48, 49, 200, 34] ++ [44]) =
      some ([97, 34, 92, 10, 1, 200], [44]) := by
  decide +kernel

end Verif.Props
