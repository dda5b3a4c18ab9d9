import Verif.Model.Format
import Verif.Spec.Text

/-! # Lemmas: numbers, hexadecimal and JSON strings -/

namespace Verif
open Spec

theorem u8_all {P : UInt8 → Prop} (h : ∀ n : Fin 256, P (UInt8.ofNat n.val)) (c : UInt8) : P c := by
  have := h ⟨c.toNat, c.toNat_lt⟩
  simpa using this

/-! ## Numbers -/

/-- The last `k` digits of a number. -/
def digitsK : Nat → Nat → Bytes
  | 0, _ => []
  | k + 1, n => digitsK k (n / 10) ++ [digitChar n]

theorem digitsK_length (k n : Nat) : (digitsK k n).length = k := by
  induction k generalizing n with
  | zero => rfl
  | succ k ih => simp [digitsK, ih]

theorem digitChar_toNat (n : Nat) : (digitChar n).toNat = 48 + n % 10 := by
  simp only [digitChar, UInt8.toNat_ofNat']
  omega

theorem digitsK_digit (k n : Nat) : ∀ c ∈ digitsK k n, IsDigit c := by
  induction k generalizing n with
  | zero => intro c hc; cases hc
  | succ k ih =>
    intro c hc
    simp only [digitsK, List.mem_append, List.mem_singleton] at hc
    rcases hc with hc | rfl
    · exact ih _ c hc
    · unfold IsDigit; rw [digitChar_toNat]; omega

theorem numval_append (s : Bytes) (c : UInt8) : numval (s ++ [c]) = 10 * numval s + (c.toNat - 48) := by
  simp [numval]

theorem digitsK_value (k n : Nat) : numval (digitsK k n) = n % 10 ^ k := by
  induction k generalizing n with
  | zero => simp [digitsK, numval, Nat.mod_one]
  | succ k ih =>
    rw [digitsK, numval_append, ih, digitChar_toNat, Nat.pow_succ', Nat.mod_mul]
    omega

theorem countDigits_pos (n : Nat) : 0 < countDigits n := by
  unfold countDigits; split <;> omega

theorem lt_pow_countDigits (n : Nat) : n < 10 ^ countDigits n := by
  induction n using Nat.strongRecOn with
  | _ n ih =>
    unfold countDigits
    split
    · omega
    · have := ih (n / 10) (by omega)
      rw [Nat.pow_succ]; omega

theorem countDigits_le {n k : Nat} (hk : 0 < k) (h : n < 10 ^ k) : countDigits n ≤ k := by
  induction k generalizing n with
  | zero => omega
  | succ k ih =>
    unfold countDigits
    split
    · omega
    · by_cases h0 : k = 0
      · subst h0; omega
      · have := ih (n := n / 10) (by omega) (by rw [Nat.pow_succ] at h; omega)
        omega

/-- The first digit of a number with more than one digit is not zero. -/
theorem digitsK_head (n : Nat) (h : 1 < countDigits n) : (digitsK (countDigits n) n).head? ≠ some 48 := by
  induction n using Nat.strongRecOn with
  | _ n ih =>
    have h0 : n / 10 ≠ 0 := by
      intro h0; unfold countDigits at h; rw [if_pos h0] at h; omega
    have hc : countDigits n = countDigits (n / 10) + 1 := by
      conv => lhs; unfold countDigits
      rw [if_neg h0]
    rw [hc, digitsK]
    by_cases h1 : countDigits (n / 10) = 1
    · rw [h1]
      have h2 : n / 10 < 10 := by have := lt_pow_countDigits (n / 10); rw [h1] at this; simpa using this
      simp only [digitsK, List.nil_append, List.singleton_append, List.head?_cons, ne_eq, Option.some.injEq]
      intro hd
      have := congrArg UInt8.toNat hd
      rw [digitChar_toNat] at this
      simp at this
      omega
    · have := countDigits_pos (n / 10)
      have hi := ih (n / 10) (by omega) (by omega)
      have hl := digitsK_length (countDigits (n / 10)) (n / 10)
      cases hd : digitsK (countDigits (n / 10)) (n / 10) with
      | nil => rw [hd] at hl; simp at hl; omega
      | cons c s => rw [hd] at hi; simpa using hi

theorem numeral_digits (n : Nat) : Numeral (digitsK (countDigits n) n) n where
  nonempty := by
    intro h
    have := digitsK_length (countDigits n) n
    rw [h] at this
    have := countDigits_pos n
    simp at *; omega
  digits := digitsK_digit _ _
  noLeadingZero := by rw [digitsK_length]; exact digitsK_head n
  value := by rw [digitsK_value, Nat.mod_eq_of_lt (lt_pow_countDigits n)]

theorem snoc_of_length {l : Bytes} {k : Nat} (h : l.length = k + 1) : ∃ p x, l = p ++ [x] ∧ p.length = k := by
  have hn : l ≠ [] := by intro h0; simp [h0] at h
  exact ⟨l.dropLast, l.getLast hn, (List.dropLast_concat_getLast hn).symm, by simp [h]⟩

theorem set_split {a b : Bytes} {x : UInt8} {i : Nat} (y : UInt8) (h : a.length = i) :
    (a ++ x :: b).set i y = a ++ y :: b := by
  subst h; simp

theorem writeDigits_eq (k n : Nat) : ∀ (pre rest : Bytes), pre.length = k →
    writeDigits k n (pre ++ rest) = .ok (digitsK k n ++ rest) := by
  induction k generalizing n with
  | zero => intro pre rest h; rw [List.length_eq_zero_iff.1 h]; rfl
  | succ k ih =>
    intro pre rest h
    obtain ⟨p, x, rfl, hp⟩ := snoc_of_length h
    simp only [writeDigits, store]
    rw [if_pos (by simp; omega), List.append_assoc, List.singleton_append, set_split _ hp]
    simp only [Out.ok_bind]
    rw [ih _ p _ hp, digitsK, List.append_assoc, List.singleton_append]

theorem vnumToStr_eq {n : Nat} {buf : Bytes} (h : countDigits n < buf.length) :
    vnumToStr n buf = .ok (countDigits n, digitsK (countDigits n) n ++ 0 :: buf.drop (countDigits n + 1)) := by
  unfold vnumToStr
  simp only
  have e : buf = buf.take (countDigits n) ++ buf.drop (countDigits n) := (List.take_append_drop ..).symm
  rw [e, writeDigits_eq _ _ _ _ (by simp; omega)]
  simp only [Out.ok_bind, store]
  rw [if_pos (by simp [digitsK_length]; omega)]
  obtain ⟨x, t, ht⟩ : ∃ x t, buf.drop (countDigits n) = x :: t := by
    cases hd : buf.drop (countDigits n) with
    | nil => simp at hd; omega
    | cons x t => exact ⟨x, t, rfl⟩
  rw [ht, set_split _ (digitsK_length _ _), ← ht, ← e]
  have : buf.drop (countDigits n + 1) = t := by rw [← List.drop_drop, ht]; rfl
  rw [this]; rfl

theorem uint64Loop_eq : ∀ (ptr num nd : Nat) (pre mid post : Bytes), mid.length = ptr + 1 →
    uint64Loop pre.length num ptr nd (pre ++ (mid ++ post)) =
      let k := min (countDigits num) (ptr + 1)
      .ok (ptr + 1 - k, nd + k, pre ++ (mid.take (ptr + 1 - k) ++ (digitsK k num ++ post))) := by
  intro ptr
  induction ptr with
  | zero =>
    intro num nd pre mid post h
    obtain ⟨x, rfl⟩ : ∃ x, mid = [x] := by
      match mid, h with
      | [x], _ => exact ⟨x, rfl⟩
    have hk : min (countDigits num) 1 = 1 := by have := countDigits_pos num; omega
    simp only [uint64Loop, store, Nat.zero_add]
    rw [if_pos (by simp), hk]
    simp [digitsK]
  | succ ptr ih =>
    intro num nd pre mid post h
    obtain ⟨m, x, rfl, hm⟩ := snoc_of_length h
    have hs : (pre ++ (m ++ [x] ++ post)).set (pre.length + (ptr + 1)) (digitChar num) =
        pre ++ (m ++ digitChar num :: post) := by
      rw [List.append_assoc, List.singleton_append, ← List.append_assoc, set_split _ (by simp [hm]), List.append_assoc]
    simp only [uint64Loop, store]
    rw [if_pos (by simp; omega), hs]
    simp only [Out.ok_bind]
    by_cases h0 : num / 10 = 0
    · have hc : countDigits num = 1 := by unfold countDigits; rw [if_pos h0]
      rw [if_pos h0, hc]
      have hk : min 1 (ptr + 1 + 1) = 1 := by omega
      rw [hk]
      simp only [digitsK, Nat.add_sub_cancel, List.nil_append, List.singleton_append]
      rw [List.take_append_of_le_length (by omega), List.take_of_length_le (by omega)]
    · have hc : countDigits num = countDigits (num / 10) + 1 := by
        conv => lhs; unfold countDigits
        rw [if_neg h0]
      rw [if_neg h0, ih _ _ _ _ _ hm]
      simp only
      have hk : min (countDigits num) (ptr + 1 + 1) = min (countDigits (num / 10)) (ptr + 1) + 1 := by
        rw [hc]; omega
      rw [hk]
      have hle : min (countDigits (num / 10)) (ptr + 1) ≤ ptr + 1 := Nat.min_le_right _ _
      have e1 : ptr + 1 + 1 - (min (countDigits (num / 10)) (ptr + 1) + 1) =
        ptr + 1 - min (countDigits (num / 10)) (ptr + 1) := by omega
      rw [e1, List.take_append_of_le_length (by omega)]
      simp only [digitsK, List.append_assoc, List.singleton_append]
      congr 2
      · congr 1; omega

theorem myUint64ToStr_eq (num : Nat) {pre mid post : Bytes} {x : UInt8} {n : Nat} (hn : 0 < n)
    (h : mid.length = n) :
    myUint64ToStr num (pre ++ (mid ++ x :: post)) pre.length (n + 1) =
      let k := min (countDigits num) n
      .ok (n - k, k, pre ++ (mid.take (n - k) ++ (digitsK k num ++ 0 :: post))) := by
  obtain ⟨m, rfl⟩ : ∃ m, n = m + 1 := ⟨n - 1, by omega⟩
  have hs : (pre ++ (mid ++ x :: post)).set (pre.length + (m + 1)) 0 = pre ++ (mid ++ 0 :: post) := by
    rw [← List.append_assoc, set_split _ (by simp [h]), List.append_assoc]
  simp only [myUint64ToStr, store]
  rw [if_pos (by simp; omega), hs]
  simp only [Out.ok_bind]
  rw [uint64Loop_eq _ _ _ _ _ _ h]
  simp

/-! ## Hexadecimal -/

theorem hexToInt_spec (c : UInt8) : (∀ v, hexToInt c = some v → IsHex c v.toNat ∧ v.toNat < 16) ∧
    (hexToInt c = none → ∀ v : Fin 16, ¬ IsHex c v) := by
  revert c
  refine u8_all fun n => ?_
  revert n
  have h1 : ∀ n : Fin 256, ∀ v ∈ (hexToInt (UInt8.ofNat n.val)).toList, IsHex (UInt8.ofNat n.val) v.toNat ∧ v.toNat < 16 := by
    decide +kernel
  have h2 : ∀ n : Fin 256, hexToInt (UInt8.ofNat n.val) = none → ∀ v : Fin 16, ¬ IsHex (UInt8.ofNat n.val) v := by
    decide +kernel
  exact fun n => ⟨fun v hv => h1 n v (by rw [hv]; simp), h2 n⟩

theorem isHex_hexToInt (c : UInt8) : ∀ v : Fin 16, IsHex c v → hexToInt c = some (UInt8.ofNat v) := by
  revert c
  refine u8_all ?_
  decide +kernel

theorem isHex_lt {c : UInt8} {v : Nat} (h : IsHex c v) : v < 16 := by
  rcases h with h | h <;>
    · have := (List.getElem?_eq_some_iff.1 h).1
      simpa using this

theorem nibbles (a b : UInt8) (ha : a.toNat < 16) (hb : b.toNat < 16) :
    (a <<< 4 ||| b).toNat / 16 = a.toNat ∧ (a <<< 4 ||| b).toNat % 16 = b.toNat := by
  have key : ∀ x y : Fin 16, ((UInt8.ofNat x.val) <<< 4 ||| UInt8.ofNat y.val).toNat / 16 = x.val ∧
      ((UInt8.ofNat x.val) <<< 4 ||| UInt8.ofNat y.val).toNat % 16 = y.val := by decide +kernel
  have := key ⟨a.toNat, ha⟩ ⟨b.toNat, hb⟩
  simpa using this

theorem hexLoop_iff : ∀ (bs s : Bytes), hexLoop s = .ok bs ↔ Hex s bs
  | bs, [] => by
    simp only [hexLoop, Out.ok.injEq]
    exact ⟨fun h => h ▸ .nil, fun h => by cases h; rfl⟩
  | bs, [c] => by
    simp only [hexLoop]
    exact ⟨fun h => (by cases h), fun h => by cases h⟩
  | bs, c :: d :: s => by
    simp only [hexLoop]
    constructor
    · intro h
      cases hc : hexToInt c with
      | none => rw [hc] at h; cases h
      | some v0 =>
        cases hd : hexToInt d with
        | none => rw [hc, hd] at h; cases h
        | some v1 =>
          rw [hc, hd] at h
          simp only at h
          cases hr : hexLoop s with
          | ok raw =>
            rw [hr] at h
            simp only [Out.ok.injEq] at h
            subst h
            obtain ⟨h1, l1⟩ := (hexToInt_spec c).1 v0 hc
            obtain ⟨h2, l2⟩ := (hexToInt_spec d).1 v1 hd
            obtain ⟨e1, e2⟩ := nibbles v0 v1 l1 l2
            exact .cons (by rw [e1]; exact h1) (by rw [e2]; exact h2) ((hexLoop_iff raw s).1 hr)
          | fail => rw [hr] at h; cases h
          | fault f => rw [hr] at h; cases h
    · intro h
      cases h with
      | @cons _ _ b _ bs h1 h2 h3 =>
        have hb : b.toNat / 16 < 16 := by have := b.toNat_lt; omega
        have hb2 : b.toNat % 16 < 16 := by omega
        rw [isHex_hexToInt c ⟨_, hb⟩ h1, isHex_hexToInt d ⟨_, hb2⟩ h2, (hexLoop_iff bs s).2 h3]
        simp only [Out.ok.injEq, List.cons.injEq, and_true]
        obtain ⟨e1, e2⟩ := nibbles (UInt8.ofNat (b.toNat / 16)) (UInt8.ofNat (b.toNat % 16))
          (by simp; omega) (by simp; omega)
        apply UInt8.toNat_inj.1
        simp only [UInt8.toNat_ofNat'] at e1 e2 ⊢
        omega

theorem hexLoop_fault (s : Bytes) (f : Fault) : hexLoop s ≠ .fault f := by
  fun_induction hexLoop s <;> simp_all

theorem hex_length {s bs : Bytes} (h : Hex s bs) : s.length = 2 * bs.length := by
  induction h with
  | nil => rfl
  | cons _ _ _ ih => simp [ih]; omega

theorem hex_chars {s bs : Bytes} (h : Hex s bs) : ∀ c ∈ s, ∃ v, IsHex c v := by
  induction h with
  | nil => intro c hc; cases hc
  | cons h1 h2 _ ih =>
    intro c hc
    rcases List.mem_cons.1 hc with rfl | hc
    · exact ⟨_, h1⟩
    rcases List.mem_cons.1 hc with rfl | hc
    · exact ⟨_, h2⟩
    exact ih c hc

theorem hex_exists : ∀ s : Bytes, s.length % 2 = 0 → (∀ c ∈ s, ∃ v, IsHex c v) → ∃ bs, Hex s bs
  | [], _, _ => ⟨[], .nil⟩
  | [_], h, _ => by simp at h
  | c :: d :: s, h, hc => by
    obtain ⟨bs, hbs⟩ := hex_exists s (by simp at h; omega) fun x hx => hc x (by simp [hx])
    obtain ⟨v, hv⟩ := hc c (by simp)
    obtain ⟨w, hw⟩ := hc d (by simp)
    have lv := isHex_lt hv
    have lw := isHex_lt hw
    have : (UInt8.ofNat (16 * v + w)).toNat = 16 * v + w := by simp; omega
    exact ⟨UInt8.ofNat (16 * v + w) :: bs, .cons (by rw [this, show (16 * v + w) / 16 = v by omega]; exact hv)
      (by rw [this, show (16 * v + w) % 16 = w by omega]; exact hw) hbs⟩

theorem hex2_isHex (b : UInt8) : IsHex (hexChar (b >>> 4)) (b.toNat / 16) ∧ IsHex (hexChar (b &&& 15)) (b.toNat % 16) := by
  revert b
  refine u8_all ?_
  decide +kernel

theorem fmtHexStr_eq (u s : Bytes) : fmtHexStr u s = u ++ s.flatMap hex2 := by
  induction s generalizing u with
  | nil => simp [fmtHexStr]
  | cons c s ih => simp [fmtHexStr, ih]

theorem fmtHex_hex (s : Bytes) : Hex (fmtHexStr [] s) s := by
  rw [fmtHexStr_eq, List.nil_append]
  induction s with
  | nil => exact .nil
  | cons c s ih =>
    have := hex2_isHex c
    exact .cons this.1 this.2 ih

/-! ## JSON strings -/

/-- What one byte is printed as. -/
def escOf (c : UInt8) : Bytes :=
  if escLetter c > 0 then [92, escLetter c]
  else if c ≤ 0x1f then [92, 117, 48, 48] ++ hex2 c
  else [c]

theorem escLoop_eq (s : Bytes) : ∀ u run, escLoop u run s = u ++ run ++ s.flatMap escOf := by
  induction s with
  | nil => intro u run; simp [escLoop]
  | cons c s ih =>
    intro u run
    have hr : (if run.length > 0 then u ++ run else u) = u ++ run := by
      cases run <;> simp
    simp only [escLoop, hr, List.flatMap_cons, escOf]
    by_cases h1 : escLetter c > 0
    · simp [h1, ih]
    · by_cases h2 : c ≤ 0x1f
      · simp only [h1, h2, or_true, if_true, if_false, ih]
        simp
      · simp only [h1, h2, or_self, if_false, ih]
        simp

theorem escaped_eq (u s : Bytes) : appendJsonStringEscaped u s = u ++ s.flatMap escOf := by
  simp [appendJsonStringEscaped, escLoop_eq]

theorem valueString_eq (u s : Bytes) : appendJsonValueString u s = u ++ 34 :: (s.flatMap escOf ++ [34]) := by
  simp [appendJsonValueString, escaped_eq]

/-- The three shapes a byte can be printed in. -/
theorem escOf_cases (c : UInt8) :
    (32 ≤ c.toNat ∧ c ≠ 34 ∧ c ≠ 92 ∧ escOf c = [c]) ∨
    (∃ x, escOf c = [92, x] ∧ (x, c) ∈ [((34 : UInt8), (34 : UInt8)), (92, 92), (98, 8), (102, 12), (110, 10), (114, 13), (116, 9)]) ∨
    (∃ a b va vb, escOf c = [92, 117, 48, 48, a, b] ∧ hexVal a = some va ∧ hexVal b = some vb ∧ c.toNat = 16 * va + vb ∧
      c.toNat < 128) := by
  have key : ∀ n : Fin 256, let c := UInt8.ofNat n.val
      (32 ≤ c.toNat ∧ c ≠ 34 ∧ c ≠ 92 ∧ escOf c = [c]) ∨
      (escOf c = [92, escLetter c] ∧ (escLetter c, c) ∈ [((34 : UInt8), (34 : UInt8)), (92, 92), (98, 8), (102, 12), (110, 10), (114, 13), (116, 9)]) ∨
      (escOf c = [92, 117, 48, 48, hexChar (c >>> 4), hexChar (c &&& 15)] ∧ hexVal (hexChar (c >>> 4)) = some (c.toNat / 16) ∧
        hexVal (hexChar (c &&& 15)) = some (c.toNat % 16) ∧ c.toNat < 128) := by decide +kernel
  have := key ⟨c.toNat, c.toNat_lt⟩
  simp only [UInt8.ofNat_toNat] at this
  rcases this with h | h | h
  · exact .inl h
  · exact .inr (.inl ⟨_, h⟩)
  · exact .inr (.inr ⟨_, _, _, _, h.1, h.2.1, h.2.2.1, by omega, h.2.2.2⟩)

theorem jsonString_esc (c : UInt8) (t : Bytes) :
    jsonString (escOf c ++ t) = (jsonString t).map fun r => (c :: r.1, r.2) := by
  rcases escOf_cases c with ⟨h1, h2, h3, h⟩ | ⟨x, h, hm⟩ | ⟨a, b, va, vb, h, ha, hb, hv, hl⟩
  · rw [h, List.singleton_append]
    conv => lhs; unfold jsonString
    rw [if_neg h2, if_neg h3, if_neg (by omega)]
  · rw [h]
    simp only [List.mem_cons, Prod.mk.injEq, List.not_mem_nil, or_false] at hm
    rcases hm with ⟨rfl, rfl⟩ | ⟨rfl, rfl⟩ | ⟨rfl, rfl⟩ | ⟨rfl, rfl⟩ | ⟨rfl, rfl⟩ | ⟨rfl, rfl⟩ | ⟨rfl, rfl⟩ <;>
      simp [jsonString]
  · rw [h]
    have h48 : hexVal 48 = some 0 := by decide
    simp only [List.cons_append, List.nil_append, jsonString, ha, hb, h48]
    rw [if_neg (by decide), if_pos trivial, if_neg (by omega)]
    have : utf8 (4096 * 0 + 256 * 0 + 16 * va + vb) = [c] := by
      unfold utf8
      rw [if_pos (by omega)]
      simp only [List.cons.injEq, and_true]
      apply UInt8.toNat_inj.1
      simp; omega
    rw [this]; rfl

theorem jsonString_escaped (s t : Bytes) : jsonString (s.flatMap escOf ++ 34 :: t) = some (s, t) := by
  induction s with
  | nil =>
    show jsonString (34 :: t) = _
    unfold jsonString
    rw [if_pos rfl]
  | cons c s ih => rw [List.flatMap_cons, List.append_assoc, jsonString_esc, ih]; rfl

theorem escOf_printable (c : UInt8) : ∀ x ∈ escOf c, 32 ≤ x.toNat := by
  revert c
  refine u8_all ?_
  decide +kernel

end Verif
