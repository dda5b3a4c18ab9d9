import Verif.Model.Setters
import Verif.Spec.Addr
import Verif.Spec.Order

/-! # Lemmas: address arithmetic -/

namespace Verif
open Spec

theorem loadBe_append (a b : Bytes) : loadBe (a ++ b) = 256 ^ b.length * loadBe a + loadBe b := by
  have key : ∀ (b : Bytes) (n : Nat), b.foldl (fun a c => 256 * a + c.toNat) n = 256 ^ b.length * n + loadBe b := by
    intro b
    induction b with
    | nil => intro n; simp [loadBe]
    | cons c b ih =>
      intro n
      simp only [loadBe, List.foldl_cons, List.length_cons]
      rw [ih, ih (256 * 0 + c.toNat), Nat.pow_succ, Nat.mul_zero, Nat.zero_add, Nat.mul_add]
      rw [Nat.mul_assoc, Nat.add_assoc]
  rw [loadBe, List.foldl_append, key]; rfl

theorem loadBe_cons (c : UInt8) (b : Bytes) : loadBe (c :: b) = 256 ^ b.length * c.toNat + loadBe b := by
  have := loadBe_append [c] b
  simpa [loadBe] using this

theorem loadBe_lt (b : Bytes) : loadBe b < 256 ^ b.length := by
  induction b with
  | nil => simp [loadBe]
  | cons c b ih =>
    rw [loadBe_cons, List.length_cons, Nat.pow_succ]
    have := c.toNat_lt
    calc 256 ^ b.length * c.toNat + loadBe b < 256 ^ b.length * c.toNat + 256 ^ b.length := by omega
      _ = 256 ^ b.length * (c.toNat + 1) := by rw [Nat.mul_add, Nat.mul_one]
      _ ≤ 256 ^ b.length * 256 := Nat.mul_le_mul_left _ (by omega)

theorem storeBe_length (k n : Nat) : (storeBe k n).length = k := by
  induction k generalizing n with
  | zero => rfl
  | succ k ih => simp [storeBe, ih]

theorem loadBe_storeBe {k n : Nat} (h : n < 256 ^ k) : loadBe (storeBe k n) = n := by
  induction k generalizing n with
  | zero => simp [storeBe, loadBe] at *; omega
  | succ k ih =>
    have h1 : n / 256 < 256 ^ k := by
      rw [Nat.div_lt_iff_lt_mul (by omega)]; rwa [Nat.pow_succ] at h
    rw [storeBe, loadBe_append, ih h1]
    simp only [List.length_singleton, Nat.pow_one, loadBe, List.foldl_cons, List.foldl_nil, Nat.mul_zero, Nat.zero_add,
      UInt8.toNat_ofNat']
    omega

/-- Lexicographic order of equally long strings is the order of the numbers. -/
theorem lexLt_load : ∀ {x y : Bytes}, x.length = y.length → (lexLt x y = true ↔ loadBe x < loadBe y)
  | [], [], _ => by simp [lexLt, loadBe]
  | [], _ :: _, h => by simp at h
  | _ :: _, [], h => by simp at h
  | a :: x, b :: y, h => by
    have hl : x.length = y.length := by simpa using h
    have ih := lexLt_load hl
    have h1 := loadBe_lt x
    have h2 := loadBe_lt y
    rw [loadBe_cons, loadBe_cons, ← hl] at *
    simp only [lexLt, Bool.or_eq_true, decide_eq_true_eq, Bool.and_eq_true, ih]
    generalize hX : loadBe x = X at *
    generalize hY : loadBe y = Y at *
    generalize hP : 256 ^ x.length = P at *
    rcases Nat.lt_trichotomy a.toNat b.toNat with hab | hab | hab
    · have : P * a.toNat + P ≤ P * b.toNat := by
        calc P * a.toNat + P = P * (a.toNat + 1) := by rw [Nat.mul_add, Nat.mul_one]
          _ ≤ P * b.toNat := Nat.mul_le_mul_left _ hab
      constructor
      · intro; omega
      · intro; exact .inl hab
    · have e : a = b := UInt8.toNat_inj.1 hab
      subst e
      constructor
      · rintro (h | ⟨-, h⟩) <;> omega
      · intro h; exact .inr ⟨rfl, by omega⟩
    · have : P * b.toNat + P ≤ P * a.toNat := by
        calc P * b.toNat + P = P * (b.toNat + 1) := by rw [Nat.mul_add, Nat.mul_one]
          _ ≤ P * a.toNat := Nat.mul_le_mul_left _ hab
      constructor
      · rintro (h | ⟨h, -⟩)
        · omega
        · subst h; omega
      · intro h; omega

theorem lexLe_load {x y : Bytes} (h : x.length = y.length) : lexLe x y = true ↔ loadBe x ≤ loadBe y := by
  have := lexLt_load h.symm
  simp only [lexLe, Bool.not_eq_true', ← Bool.not_eq_true, this]
  omega

/-- Bits of an address are bits of its number. -/
theorem bitAt_load (x : Bytes) : ∀ i, i < 8 * x.length → bitAt x i = (loadBe x).testBit (8 * x.length - 1 - i) := by
  induction x with
  | nil => intro i hi; simp at hi
  | cons c x ih =>
    intro i hi
    have hlt : loadBe x < 2 ^ (8 * x.length) := by
      have := loadBe_lt x
      rwa [Nat.pow_mul]
    have hp : 256 ^ x.length = 2 ^ (8 * x.length) := by rw [Nat.pow_mul]
    rw [loadBe_cons, hp, Nat.testBit_two_pow_mul_add _ hlt]
    simp only [List.length_cons] at *
    by_cases h8 : i < 8
    · rw [if_neg (by omega)]
      have e : i / 8 = 0 := by omega
      simp only [bitAt, e, List.getD_cons_zero]
      congr 1
      omega
    · rw [if_pos (by omega)]
      have e : i / 8 = (i - 8) / 8 + 1 := by omega
      have := ih (i - 8) (by omega)
      simp only [bitAt, e, List.getD_cons_succ] at *
      have e2 : 7 - i % 8 = 7 - (i - 8) % 8 := by omega
      rw [e2, this]
      congr 1
      omega

/-- Agreement in the first bits is agreement of the leading parts of the numbers. -/
theorem sameBits_load {x a : Bytes} {n : Nat} (h : x.length = a.length) (hn : n ≤ 8 * a.length) :
    sameBits n x a ↔ loadBe x / 2 ^ (8 * a.length - n) = loadBe a / 2 ^ (8 * a.length - n) := by
  have hx : loadBe x < 2 ^ (8 * a.length) := by rw [← h]; have := loadBe_lt x; rwa [Nat.pow_mul]
  have ha : loadBe a < 2 ^ (8 * a.length) := by have := loadBe_lt a; rwa [Nat.pow_mul]
  constructor
  · intro hs
    apply Nat.eq_of_testBit_eq
    intro j
    rw [Nat.testBit_div_two_pow, Nat.testBit_div_two_pow]
    by_cases hj : j < n
    · have := hs (n - 1 - j) (by omega)
      rw [bitAt_load x _ (by omega), bitAt_load a _ (by omega), h] at this
      have e : 8 * a.length - 1 - (n - 1 - j) = j + (8 * a.length - n) := by omega
      rwa [e] at this
    · rw [Nat.testBit_lt_two_pow (Nat.lt_of_lt_of_le hx (Nat.pow_le_pow_right (by omega) (by omega))),
        Nat.testBit_lt_two_pow (Nat.lt_of_lt_of_le ha (Nat.pow_le_pow_right (by omega) (by omega)))]
  · intro hs i hi
    rw [bitAt_load x _ (by omega), bitAt_load a _ (by omega), h]
    have := congrArg (fun m => m.testBit (n - 1 - i)) hs
    simp only [Nat.testBit_div_two_pow] at this
    have e : n - 1 - i + (8 * a.length - n) = 8 * a.length - 1 - i := by omega
    rwa [e] at this

/-- Between the lowest and the highest number of a block is inside the block. -/
theorem between_block (x a h : Nat) :
    (a / 2 ^ h * 2 ^ h ≤ x ∧ x ≤ 2 ^ h * (a / 2 ^ h) + (2 ^ h - 1)) ↔ x / 2 ^ h = a / 2 ^ h := by
  have hp : 0 < 2 ^ h := Nat.two_pow_pos h
  generalize 2 ^ h = P at *
  constructor
  · rintro ⟨h1, h2⟩
    apply Nat.le_antisymm
    · rw [← Nat.lt_succ_iff, Nat.div_lt_iff_lt_mul hp, Nat.succ_mul, Nat.mul_comm (a / P)]
      omega
    · rwa [Nat.le_div_iff_mul_le hp]
  · intro e
    rw [← e]
    refine ⟨Nat.div_mul_le_self x P, ?_⟩
    have := Nat.div_add_mod x P
    have := Nat.mod_lt x hp
    omega

theorem testBit_floor (n h j : Nat) : (n / 2 ^ h * 2 ^ h).testBit j = (decide (h ≤ j) && n.testBit j) := by
  rw [Nat.testBit_mul_two_pow, Nat.testBit_div_two_pow]
  by_cases hj : h ≤ j
  · simp [hj]
  · simp [hj]

theorem testBit_ceil (n h j : Nat) :
    (2 ^ h * (n / 2 ^ h) + (2 ^ h - 1)).testBit j = (decide (j < h) || n.testBit j) := by
  have hp : 0 < 2 ^ h := Nat.two_pow_pos h
  rw [Nat.testBit_two_pow_mul_add _ (by omega), Nat.testBit_two_pow_sub_one, Nat.testBit_div_two_pow]
  by_cases hj : j < h
  · simp [hj]
  · have : j - h + h = j := by omega
    simp [hj, this]

/-- Clearing the host bits of a number of `w` bits. -/
theorem and_net {w n h : Nat} (hn : n < 2 ^ w) (hw : h ≤ w) :
    n &&& (2 ^ w - 1 - (2 ^ h - 1)) = n / 2 ^ h * 2 ^ h := by
  have hp : 0 < 2 ^ h := Nat.two_pow_pos h
  have hle : 2 ^ h ≤ 2 ^ w := Nat.pow_le_pow_right (by omega) hw
  apply Nat.eq_of_testBit_eq
  intro j
  have e : 2 ^ w - 1 - (2 ^ h - 1) = 2 ^ w - ((2 ^ h - 1) + 1) := by omega
  rw [Nat.testBit_and, testBit_floor, e, Nat.testBit_two_pow_sub_succ (by omega), Nat.testBit_two_pow_sub_one]
  by_cases hj : j < w
  · by_cases hjh : j < h
    · have : ¬ h ≤ j := by omega
      simp [hj, hjh, this]
    · have : h ≤ j := by omega
      simp [hj, hjh, this]
  · have : n.testBit j = false :=
      Nat.testBit_lt_two_pow (Nat.lt_of_lt_of_le hn (Nat.pow_le_pow_right (by omega) (by omega)))
    simp [this]

/-- Setting the host bits. -/
theorem or_host (n h : Nat) : n ||| (2 ^ h - 1) = 2 ^ h * (n / 2 ^ h) + (2 ^ h - 1) := by
  apply Nat.eq_of_testBit_eq
  intro j
  rw [Nat.testBit_or, testBit_ceil, Nat.testBit_two_pow_sub_one, Bool.or_comm]

theorem floor_lt {w n h : Nat} (hn : n < 2 ^ w) : n / 2 ^ h * 2 ^ h < 2 ^ w :=
  Nat.lt_of_le_of_lt (Nat.div_mul_le_self ..) hn

theorem ceil_lt {w n h : Nat} (hn : n < 2 ^ w) (hw : h ≤ w) : 2 ^ h * (n / 2 ^ h) + (2 ^ h - 1) < 2 ^ w := by
  rw [← or_host]
  have : 2 ^ h ≤ 2 ^ w := Nat.pow_le_pow_right (by omega) hw
  have hp : 0 < 2 ^ h := Nat.two_pow_pos h
  exact Nat.or_lt_two_pow hn (by omega)

/-! ## IPv4 -/

/-- The host mask as long as the shift works. -/
theorem ip4Host_eq {A : Arith} {p : Nat} (h : A = strictArith ∧ 2 ≤ p ∨ A = x86Arith ∧ 1 ≤ p) (hp : p ≤ 32) :
    ip4Host A p = .ok (2 ^ (32 - p) - 1) := by
  have key : ∀ p : Fin 33, (2 ≤ p.1 → ip4Host strictArith p.1 = .ok (2 ^ (32 - p.1) - 1)) ∧
      (1 ≤ p.1 → ip4Host x86Arith p.1 = .ok (2 ^ (32 - p.1) - 1)) := by decide +kernel
  have := key ⟨p, by omega⟩
  rcases h with ⟨rfl, h⟩ | ⟨rfl, h⟩
  · exact this.1 h
  · exact this.2 h

/-- The bounds computed for an IPv4 prefix. -/
theorem ip4_bounds {A : Arith} {a : Bytes} (ha : a.length = 4) {p : Nat} (h : ip4Host A p = .ok (2 ^ (32 - p) - 1)) :
    ∃ lo hi, ip4Lower A a p = .ok lo ∧ ip4Upper A a p = .ok hi ∧ lo.length = 4 ∧ hi.length = 4 ∧
      loadBe lo = loadBe a / 2 ^ (32 - p) * 2 ^ (32 - p) ∧
      loadBe hi = 2 ^ (32 - p) * (loadBe a / 2 ^ (32 - p)) + (2 ^ (32 - p) - 1) := by
  have hn : loadBe a < 2 ^ 32 := by have := loadBe_lt a; rw [ha] at this; exact this
  refine ⟨storeBe 4 (loadBe a / 2 ^ (32 - p) * 2 ^ (32 - p)),
    storeBe 4 (2 ^ (32 - p) * (loadBe a / 2 ^ (32 - p)) + (2 ^ (32 - p) - 1)), ?_, ?_, storeBe_length .., storeBe_length ..,
    loadBe_storeBe (floor_lt hn), loadBe_storeBe (ceil_lt hn (by omega))⟩
  · rw [ip4Lower, h, Out.ok_bind, and_net hn (by omega)]
  · rw [ip4Upper, h, Out.ok_bind, or_host]

/-! ## IPv6 -/

/-- The network mask of a word as long as the shift works. -/
theorem net64_eq {A : Arith} {p : Nat} (h : A = strictArith ∧ 1 ≤ p ∨ A = x86Arith) (hp : p < 64) :
    net64 A p = .ok (2 ^ 64 - 1 - (2 ^ (64 - p) - 1)) := by
  have key : ∀ p : Fin 64, (1 ≤ p.1 → net64 strictArith p.1 = .ok (2 ^ 64 - 1 - (2 ^ (64 - p.1) - 1))) ∧
      net64 x86Arith p.1 = .ok (2 ^ 64 - 1 - (2 ^ (64 - p.1) - 1)) := by decide +kernel
  have := key ⟨p, hp⟩
  rcases h with ⟨rfl, h⟩ | rfl
  · exact this.1 h
  · exact this.2

theorem testBit_words {H L : Nat} (hL : L < 2 ^ 64) (j : Nat) :
    (2 ^ 64 * H + L).testBit j = if j < 64 then L.testBit j else H.testBit (j - 64) :=
  Nat.testBit_two_pow_mul_add H hL j

theorem floor_words_hi {H L h : Nat} (hL : L < 2 ^ 64) (hh : 64 ≤ h) :
    2 ^ 64 * (H / 2 ^ (h - 64) * 2 ^ (h - 64)) + 0 = (2 ^ 64 * H + L) / 2 ^ h * 2 ^ h := by
  apply Nat.eq_of_testBit_eq
  intro j
  rw [testBit_words (by omega), testBit_floor, testBit_floor, testBit_words hL]
  by_cases hj : j < 64
  · have : ¬ h ≤ j := by omega
    simp [hj, this]
  · have : (h - 64 ≤ j - 64) ↔ h ≤ j := by omega
    simp only [hj, if_false, this]

theorem floor_words_lo {H L h : Nat} (hL : L < 2 ^ 64) (hh : h ≤ 64) :
    2 ^ 64 * H + L / 2 ^ h * 2 ^ h = (2 ^ 64 * H + L) / 2 ^ h * 2 ^ h := by
  apply Nat.eq_of_testBit_eq
  intro j
  rw [testBit_words (floor_lt hL), testBit_floor, testBit_floor, testBit_words hL]
  by_cases hj : j < 64
  · simp [hj]
  · have : h ≤ j := by omega
    simp [hj, this]

theorem ceil_words_hi {H L h : Nat} (hL : L < 2 ^ 64) (hh : 64 ≤ h) :
    2 ^ 64 * (2 ^ (h - 64) * (H / 2 ^ (h - 64)) + (2 ^ (h - 64) - 1)) + (2 ^ 64 - 1)
      = 2 ^ h * ((2 ^ 64 * H + L) / 2 ^ h) + (2 ^ h - 1) := by
  apply Nat.eq_of_testBit_eq
  intro j
  rw [testBit_words (by omega), testBit_ceil, testBit_ceil, testBit_words hL, Nat.testBit_two_pow_sub_one]
  by_cases hj : j < 64
  · have : j < h := by omega
    simp [hj, this]
  · have : (j - 64 < h - 64) ↔ j < h := by omega
    simp only [hj, if_false, this]

theorem ceil_words_lo {H L h : Nat} (hL : L < 2 ^ 64) (hh : h ≤ 64) :
    2 ^ 64 * H + (2 ^ h * (L / 2 ^ h) + (2 ^ h - 1)) = 2 ^ h * ((2 ^ 64 * H + L) / 2 ^ h) + (2 ^ h - 1) := by
  apply Nat.eq_of_testBit_eq
  intro j
  rw [testBit_words (ceil_lt hL hh), testBit_ceil, testBit_ceil, testBit_words hL]
  by_cases hj : j < 64
  · simp [hj]
  · have : ¬ j < h := by omega
    simp [hj, this]

/-- Two stored words. -/
theorem load_words {H L : Nat} (hH : H < 2 ^ 64) (hL : L < 2 ^ 64) :
    loadBe (storeBe 8 H ++ storeBe 8 L) = 2 ^ 64 * H + L ∧ (storeBe 8 H ++ storeBe 8 L).length = 16 := by
  rw [loadBe_append, loadBe_storeBe (by exact hH), loadBe_storeBe (by exact hL)]
  simp only [List.length_append, storeBe_length]
  exact ⟨trivial, trivial⟩

/-- The bounds computed for an IPv6 prefix. -/
theorem ip6_bounds {A : Arith} {a : Bytes} (ha : a.length = 16) {p : Nat} (hp : p ≤ 128)
    (h : A = strictArith ∧ p ≠ 0 ∧ p ≠ 64 ∨ A = x86Arith) :
    ∃ lo hi, ip6Lower A a p = .ok lo ∧ ip6Upper A a p = .ok hi ∧ lo.length = 16 ∧ hi.length = 16 ∧
      loadBe lo = loadBe a / 2 ^ (128 - p) * 2 ^ (128 - p) ∧
      loadBe hi = 2 ^ (128 - p) * (loadBe a / 2 ^ (128 - p)) + (2 ^ (128 - p) - 1) := by
  have hH : loadBe (a.take 8) < 2 ^ 64 := by
    have := loadBe_lt (a.take 8); rw [List.length_take, ha] at this; exact this
  have hL : loadBe (a.drop 8) < 2 ^ 64 := by
    have := loadBe_lt (a.drop 8); rw [List.length_drop, ha] at this; exact this
  have ea : loadBe a = 2 ^ 64 * loadBe (a.take 8) + loadBe (a.drop 8) := by
    have := loadBe_append (a.take 8) (a.drop 8)
    rw [List.take_append_drop, List.length_drop, ha] at this
    exact this
  rw [ea, ip6Lower, ip6Upper]
  generalize loadBe (a.take 8) = H at *
  generalize loadBe (a.drop 8) = L at *
  by_cases h1 : p < 64
  · have e := net64_eq (A := A) (p := p) (by rcases h with ⟨h, h', -⟩ | h; exact .inl ⟨h, by omega⟩; exact .inr h) h1
    have e' : 128 - p - 64 = 64 - p := by omega
    have hm : 2 ^ 64 - 1 - (2 ^ 64 - 1 - (2 ^ (64 - p) - 1)) = 2 ^ (64 - p) - 1 := by
      have : 2 ^ (64 - p) ≤ 2 ^ 64 := Nat.pow_le_pow_right (by omega) (by omega)
      have : 0 < 2 ^ (64 - p) := Nat.two_pow_pos _
      omega
    have hl1 : L ||| (2 ^ 64 - 1) = 2 ^ 64 - 1 := by
      rw [or_host, Nat.div_eq_of_lt hL]
    have w1 := load_words (floor_lt (h := 64 - p) hH) (show (0 : Nat) < 2 ^ 64 by omega)
    have w2 := load_words (ceil_lt (h := 64 - p) hH (by omega)) (show (2 ^ 64 - 1 : Nat) < 2 ^ 64 by omega)
    refine ⟨_, _, ?_, ?_, w1.2, w2.2, ?_, ?_⟩
    · rw [ip6Net, if_pos h1, e]
      simp only [Out.ok_bind]
      rw [and_net hH (by omega), Nat.and_zero]
    · rw [ip6Host, if_pos h1, e]
      simp only [Out.ok_bind]
      rw [hm, or_host, hl1]
    · rw [w1.1, ← floor_words_hi hL (by omega), e']
    · rw [w2.1, ← ceil_words_hi hL (by omega), e']
  · have hand : H &&& (2 ^ 64 - 1) = H := by
      have := and_net (h := 0) hH (by omega)
      simpa using this
    by_cases h2 : p < 128
    · have e := net64_eq (A := A) (p := p - 64)
        (by rcases h with ⟨h, -, h'⟩ | h; exact .inl ⟨h, by omega⟩; exact .inr h) (by omega)
      have e' : 64 - (p - 64) = 128 - p := by omega
      rw [e'] at e
      have hm : 2 ^ 64 - 1 - (2 ^ 64 - 1 - (2 ^ (128 - p) - 1)) = 2 ^ (128 - p) - 1 := by
        have : 2 ^ (128 - p) ≤ 2 ^ 64 := Nat.pow_le_pow_right (by omega) (by omega)
        have : 0 < 2 ^ (128 - p) := Nat.two_pow_pos _
        omega
      have w1 := load_words hH (floor_lt (h := 128 - p) hL)
      have w2 := load_words hH (ceil_lt (h := 128 - p) hL (by omega))
      refine ⟨_, _, ?_, ?_, w1.2, w2.2, ?_, ?_⟩
      · rw [ip6Net, if_neg h1, if_pos h2, e]
        simp only [Out.ok_bind]
        rw [and_net hL (by omega), hand]
      · rw [ip6Host, if_neg h1, if_pos h2, e]
        simp only [Out.ok_bind]
        rw [hm, or_host, Nat.or_zero]
      · rw [w1.1, ← floor_words_lo hL (by omega)]
      · rw [w2.1, ← ceil_words_lo hL (by omega)]
    · have hand' : L &&& (2 ^ 64 - 1) = L := by
        have := and_net (h := 0) hL (by omega)
        simpa using this
      have e' : 128 - p = 0 := by omega
      have w1 := load_words hH hL
      refine ⟨_, _, ?_, ?_, w1.2, w1.2, ?_, ?_⟩
      · rw [ip6Net, if_neg h1, if_neg h2]
        simp only [Out.ok_bind]
        rw [hand, hand']
      · rw [ip6Host, if_neg h1, if_neg h2]
        simp only [Out.ok_bind]
        rw [Nat.or_zero, Nat.or_zero]
      · rw [w1.1, e']; simp
      · rw [w1.1, e']; simp

/-- Between the two bounds is agreeing in the first bits. -/
theorem between_bounds {k p : Nat} {a lo hi x : Bytes} (ha : a.length = k) (hl : lo.length = k) (hh : hi.length = k)
    (hx : x.length = k) (hp : p ≤ 8 * k)
    (h1 : loadBe lo = loadBe a / 2 ^ (8 * k - p) * 2 ^ (8 * k - p))
    (h2 : loadBe hi = 2 ^ (8 * k - p) * (loadBe a / 2 ^ (8 * k - p)) + (2 ^ (8 * k - p) - 1)) :
    (lexLe lo x = true ∧ lexLe x hi = true) ↔ sameBits p x a := by
  rw [lexLe_load (hl.trans hx.symm), lexLe_load (hx.trans hh.symm), h1, h2, between_block,
    sameBits_load (hx.trans ha.symm) (by omega), ha]

/-! ## Parsing -/

theorem tokenLoop_none {sep : UInt8} {s : Bytes} (h : sep ∉ s) (acc : Bytes) (ha : acc ++ s ≠ []) :
    tokenLoop sep s acc = [acc ++ s] := by
  induction s generalizing acc with
  | nil => simp_all [tokenLoop]
  | cons c s ih =>
    simp only [List.mem_cons, not_or] at h
    rw [tokenLoop, if_neg (Ne.symm h.1), ih h.2 _ (by simp)]
    simp

theorem tokenLoop_two {sep : UInt8} {s t : Bytes} (hs : sep ∉ s) (ht : sep ∉ t) (acc : Bytes)
    (hn : acc ++ s ≠ []) (htn : t ≠ []) : tokenLoop sep (s ++ sep :: t) acc = [acc ++ s, t] := by
  induction s generalizing acc with
  | nil =>
    simp only [List.append_nil] at hn
    simp only [List.nil_append, tokenLoop, if_true, if_neg hn, List.append_nil]
    rw [tokenLoop_none ht [] (by simpa using htn)]; rfl
  | cons c s ih =>
    simp only [List.mem_cons, not_or] at hs
    rw [List.cons_append, tokenLoop, if_neg (Ne.symm hs.1), ih hs.2 _ (by simp)]
    simp

theorem tokenLoop_sep {sep : UInt8} {s : Bytes} (h : sep ∉ s) (acc rest : Bytes) :
    tokenLoop sep (s ++ sep :: rest) acc = [acc ++ s].filter (fun f => decide (f ≠ [])) ++ tokenLoop sep rest [] := by
  induction s generalizing acc with
  | nil =>
    simp only [List.nil_append, tokenLoop, if_true, List.append_nil]
    by_cases ha : acc = [] <;> simp [ha]
  | cons c s ih =>
    simp only [List.mem_cons, not_or] at h
    rw [List.cons_append, tokenLoop, if_neg (Ne.symm h.1), ih h.2]
    simp

theorem tokens_join {sep : UInt8} (fs : List Bytes) (h : ∀ f ∈ fs, sep ∉ f) :
    tokens sep (([sep] : Bytes).intercalate fs) = fs.filter fun f => decide (f ≠ []) := by
  unfold tokens
  induction fs with
  | nil => simp [List.intercalate, tokenLoop]
  | cons f fs ih =>
    cases fs with
    | nil =>
      have e : ([sep] : Bytes).intercalate [f] = f := by simp [List.intercalate]
      rw [e]
      by_cases hf : f = []
      · simp [hf, tokenLoop]
      · rw [tokenLoop_none (h f (by simp)) [] (by simpa using hf)]; simp [hf]
    | cons g fs =>
      have e : ([sep] : Bytes).intercalate (f :: g :: fs) = f ++ sep :: ([sep] : Bytes).intercalate (g :: fs) := by
        simp [List.intercalate]
      rw [e, tokenLoop_sep (h f (by simp)), ih fun x hx => h x (List.mem_cons_of_mem _ hx)]
      simp only [List.nil_append]
      rw [← List.filter_append]
      rfl

theorem mem_join {sep : UInt8} {fs : List Bytes} (h : 2 ≤ fs.length) : sep ∈ ([sep] : Bytes).intercalate fs := by
  match fs, h with
  | f :: g :: fs, _ => simp [List.intercalate]

theorem not_mem_join {c sep : UInt8} {fs : List Bytes} (hc : c ≠ sep) (h : ∀ f ∈ fs, c ∉ f) :
    c ∉ ([sep] : Bytes).intercalate fs := by
  induction fs with
  | nil => simp [List.intercalate]
  | cons f fs ih =>
    cases fs with
    | nil => simpa [List.intercalate] using h f (by simp)
    | cons g fs =>
      have e : ([sep] : Bytes).intercalate (f :: g :: fs) = f ++ sep :: ([sep] : Bytes).intercalate (g :: fs) := by
        simp [List.intercalate]
      rw [e]
      simp only [List.mem_append, List.mem_cons, not_or]
      exact ⟨h f (by simp), hc, ih fun x hx => h x (List.mem_cons_of_mem _ hx)⟩

end Verif
