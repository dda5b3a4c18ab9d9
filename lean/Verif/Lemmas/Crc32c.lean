import Verif.Model.Crc32c
import Verif.Spec.Crc32c

/-!
# Lemmas for the checksum
-/

namespace Verif.Crc32c
open Verif.Spec

/-! ## Shifting the register -/

/-- The register shifted `n` times. -/
def shifts : Nat → Nat → Nat
  | 0, c => c
  | n + 1, c => shifts n (shift c)

theorem eq_of_xor_zero {a b : Nat} (h : a ^^^ b = 0) : a = b := by
  rw [← Nat.xor_zero a, ← h, ← Nat.xor_assoc, Nat.xor_self, Nat.zero_xor]

theorem xor_cancel_right {a b c : Nat} (h : a ^^^ c = b ^^^ c) : a = b := by
  rw [← Nat.xor_zero a, ← Nat.xor_self c, ← Nat.xor_assoc, h, Nat.xor_assoc, Nat.xor_self, Nat.xor_zero]

theorem xor_cancel_left {a b c : Nat} (h : c ^^^ a = c ^^^ b) : a = b :=
  xor_cancel_right (c := c) (by rw [Nat.xor_comm a, h, Nat.xor_comm])

theorem shift_xor (a b : Nat) : shift (a ^^^ b) = shift a ^^^ shift b := by
  unfold shift
  have h : (a ^^^ b) % 2 * 0x82F63B78 = (a % 2 * 0x82F63B78) ^^^ (b % 2 * 0x82F63B78) := by
    rw [show (a ^^^ b) % 2 = (a % 2) ^^^ (b % 2) from by simpa using Nat.xor_mod_two_pow (a := a) (b := b) (n := 1)]
    rcases Nat.mod_two_eq_zero_or_one a with e | e <;> rcases Nat.mod_two_eq_zero_or_one b with f | f <;> simp [e, f]
  rw [h, Nat.shiftRight_xor_distrib]
  ac_rfl

theorem shifts_xor : ∀ (n a b : Nat), shifts n (a ^^^ b) = shifts n a ^^^ shifts n b
  | 0, _, _ => rfl
  | n + 1, a, b => by rw [shifts, shift_xor, shifts_xor n]; rfl

theorem shifts_add : ∀ (m n c : Nat), shifts (m + n) c = shifts n (shifts m c)
  | 0, n, c => by rw [Nat.zero_add]; rfl
  | m + 1, n, c => by rw [show m + 1 + n = (m + n) + 1 by omega, shifts, shifts_add m n]; rfl

theorem shift_double (x : Nat) : shift (x <<< 1) = x := by
  unfold shift
  rw [Nat.shiftLeft_eq, show x * 2 ^ 1 % 2 = 0 by omega, Nat.shiftRight_eq_div_pow]
  simp

theorem shifts_shiftLeft : ∀ (n x : Nat), shifts n (x <<< n) = x
  | 0, x => rfl
  | n + 1, x => by
    rw [shifts, show x <<< (n + 1) = (x <<< n) <<< 1 by rw [Nat.shiftLeft_add], shift_double, shifts_shiftLeft n]

theorem shift_lt {c : Nat} (h : c < 2 ^ 32) : shift c < 2 ^ 32 := by
  unfold shift
  apply Nat.xor_lt_two_pow
  · rw [Nat.shiftRight_eq_div_pow]; omega
  · rcases Nat.mod_two_eq_zero_or_one c with e | e <;> rw [e] <;> decide

theorem shifts_lt : ∀ (n : Nat) {c : Nat}, c < 2 ^ 32 → shifts n c < 2 ^ 32
  | 0, _, h => h
  | n + 1, _, h => shifts_lt n (shift_lt h)

theorem shift_zero {c : Nat} (h : c < 2 ^ 32) (h0 : shift c = 0) : c = 0 := by
  unfold shift at h0
  have h0 := eq_of_xor_zero h0
  rw [Nat.shiftRight_eq_div_pow] at h0
  rcases Nat.mod_two_eq_zero_or_one c with e | e <;> rw [e] at h0 <;> omega

theorem shifts_zero : ∀ (n : Nat) {c : Nat}, c < 2 ^ 32 → shifts n c = 0 → c = 0
  | 0, _, _, h0 => h0
  | n + 1, _, h, h0 => shift_zero h (shifts_zero n (shift_lt h) h0)

theorem split_low (k c : Nat) : c = (c % 2 ^ k) ^^^ ((c >>> k) <<< k) := by
  apply Nat.eq_of_testBit_eq
  intro i
  rw [Nat.testBit_xor, Nat.testBit_mod_two_pow, Nat.testBit_shiftLeft, Nat.testBit_shiftRight]
  by_cases h : i < k
  · simp [h, Nat.not_le.2 h]
  · rw [Nat.add_sub_cancel' (by omega)]
    simp [h, Nat.le_of_not_lt h]

theorem shifts_split (n k c : Nat) : shifts (k + n) c = shifts (k + n) (c % 2 ^ k) ^^^ shifts n (c >>> k) := by
  conv => lhs; rw [split_low k c]
  rw [shifts_xor, shifts_add k n (_ <<< _), shifts_shiftLeft]

theorem or_shift {a k : Nat} (x : Nat) (h : a < 2 ^ k) : a ||| x <<< k = a ^^^ x <<< k := by
  apply Nat.eq_of_testBit_eq
  intro i
  rw [Nat.testBit_xor, Nat.testBit_or, Nat.testBit_shiftLeft]
  by_cases hi : i < k
  · simp [Nat.not_le.2 hi]
  · rw [Nat.testBit_lt_two_pow (Nat.lt_of_lt_of_le h (Nat.pow_le_pow_right (by decide) (Nat.le_of_not_lt hi)))]
    simp

theorem repeat_shift (n c : Nat) : n.repeat shift c = shifts n c := by
  induction n generalizing c with
  | zero => rfl
  | succ n ih =>
    rw [Nat.repeat, ih, ← show shifts 1 (shifts n c) = shift (shifts n c) from rfl, ← shifts_add]

/-! ## The message as a number -/

/-- A byte string as a number, the lowest byte first. -/
def lowFirst : Bytes → Nat
  | [] => 0
  | b :: bs => b.toNat ^^^ lowFirst bs <<< 8

theorem lowFirst_lt : ∀ bs : Bytes, lowFirst bs < 2 ^ (8 * bs.length)
  | [] => by decide
  | b :: bs => by
    rw [lowFirst, List.length_cons]
    apply Nat.xor_lt_two_pow
    · exact Nat.lt_of_lt_of_le b.toNat_lt (Nat.pow_le_pow_right (by decide) (by omega))
    · rw [Nat.shiftLeft_eq, show 8 * (bs.length + 1) = 8 * bs.length + 8 by omega, Nat.pow_add]
      exact Nat.mul_lt_mul_of_pos_right (lowFirst_lt bs) (by decide)

theorem byte_xor (b : UInt8) (x : Nat) : b.toNat ^^^ x <<< 8 = b.toNat + 256 * x := by
  rw [← or_shift x b.toNat_lt, Nat.shiftLeft_eq, Nat.or_comm, Nat.mul_comm, ← Nat.two_pow_add_eq_or_of_lt b.toNat_lt]
  omega

theorem lowFirst_inj : ∀ {x y : Bytes}, x.length = y.length → lowFirst x = lowFirst y → x = y
  | [], [], _, _ => rfl
  | b :: x, c :: y, hl, h => by
    rw [lowFirst, lowFirst, byte_xor, byte_xor] at h
    have h1 : b.toNat < 256 := b.toNat_lt
    have h2 : c.toNat < 256 := c.toNat_lt
    rw [UInt8.toNat_inj.1 (show b.toNat = c.toNat by omega), lowFirst_inj (by simpa using hl) (show lowFirst x = lowFirst y by omega)]
  | [], _ :: _, hl, _ => by simp at hl
  | _ :: _, [], hl, _ => by simp at hl

theorem feed_eq (c : Nat) (bit : Bool) : crcFeed c bit = shift (c ^^^ bit.toNat) := by
  unfold crcFeed shift
  rw [Nat.shiftRight_xor_distrib, show bit.toNat >>> 1 = 0 by cases bit <;> rfl, Nat.xor_zero,
    show (c ^^^ bit.toNat) % 2 = (c % 2) ^^^ (bit.toNat % 2) from by simpa using Nat.xor_mod_two_pow (a := c) (b := bit.toNat) (n := 1)]
  have : c.testBit 0 = (c % 2 == 1) := by rw [Nat.testBit_zero]; rfl
  rw [this]
  rcases Nat.mod_two_eq_zero_or_one c with e | e <;> cases bit <;> simp [e]

theorem feed_bits : ∀ (n c v : Nat), v < 2 ^ n → ((List.range n).map v.testBit).foldl crcFeed c = shifts n (c ^^^ v)
  | 0, c, v, h => by
    have : v = 0 := by omega
    simp [this, shifts]
  | n + 1, c, v, h => by
    rw [List.range_succ_eq_map, List.map_cons, List.map_map, List.foldl_cons]
    have e : (v.testBit ∘ Nat.succ) = (v >>> 1).testBit := by
      funext i
      rw [Function.comp, Nat.testBit_shiftRight, Nat.add_comm]
    rw [e, feed_bits n _ _ (by rw [Nat.shiftRight_eq_div_pow]; omega), feed_eq, shifts]
    congr 1
    conv => rhs; rw [split_low 1 v]
    rw [← Nat.xor_assoc, shift_xor (c ^^^ v % 2 ^ 1), shift_double]
    congr 3
    rw [Nat.testBit_zero]
    rcases Nat.mod_two_eq_zero_or_one v with e | e <;> simp [e]

/-- The bytes of a message enter the register all at once. -/
theorem feed_message : ∀ (x : Bytes) (c : Nat), (messageBits x).foldl crcFeed c = shifts (8 * x.length) (c ^^^ lowFirst x)
  | [], c => by simp [messageBits, lowFirst, shifts]
  | b :: x, c => by
    have e : messageBits (b :: x) = (List.range 8).map b.toNat.testBit ++ messageBits x := by simp [messageBits]
    rw [e, List.foldl_append, feed_bits 8 c _ b.toNat_lt, feed_message x, List.length_cons,
      show 8 * (x.length + 1) = 8 + 8 * x.length by omega, shifts_add]
    congr 1
    rw [lowFirst, ← Nat.xor_assoc, shifts_xor, shifts_xor, shifts_xor, shifts_shiftLeft]

/-- The register after a message. -/
def register (c : Nat) (x : Bytes) : Nat := shifts (8 * x.length) (c ^^^ lowFirst x)

theorem register_append (c : Nat) (x y : Bytes) : register c (x ++ y) = register (register c x) y := by
  simp only [register, ← feed_message]
  rw [← List.foldl_append, messageBits, messageBits, messageBits, List.flatMap_append]

theorem register_lt {c : Nat} (h : c < 2 ^ 32) (x : Bytes) : register c x < 2 ^ 32 := by
  induction x generalizing c with
  | nil => simpa [register, shifts, lowFirst] using h
  | cons b x ih =>
    rw [show b :: x = [b] ++ x from rfl, register_append]
    refine ih (shifts_lt _ (Nat.xor_lt_two_pow h ?_))
    exact Nat.lt_of_lt_of_le (lowFirst_lt [b]) (by rw [List.length_singleton]; decide)

/-! ## The tables -/

/-- The entry for a byte in the table `k` is the byte shifted by `k + 1` bytes. -/
theorem slicing_eq : slicing = (List.range 8).map fun k => (List.range 256).map fun i => shifts (8 * (k + 1)) i := by
  decide +kernel

theorem entry_eq {k i : Nat} (hk : k < 8) (hi : i < 256) : entry k i = .ok (shifts (8 * (k + 1)) i) := by
  unfold entry
  rw [slicing_eq, List.getElem?_map, List.getElem?_range hk]
  simp only [Option.map_some, List.getElem?_map, List.getElem?_range hi]

theorem mask (c : Nat) : c &&& 0xFF = c % 2 ^ 8 := Nat.and_two_pow_sub_one_eq_mod c 8

/-! ## The loops -/

theorem byteAt_eq (pre : Bytes) (b : UInt8) (rest : Bytes) : byteAt (pre ++ b :: rest) pre.length = .ok b.toNat := by
  simp [byteAt]

theorem wordAt_eq : ∀ (x pre rest : Bytes), wordAt (pre ++ (x ++ rest)) pre.length x.length = .ok (lowFirst x)
  | [], _, _ => rfl
  | b :: x, pre, rest => by
    rw [List.length_cons, wordAt, List.cons_append, byteAt_eq]
    have := wordAt_eq x (pre ++ [b]) rest
    rw [List.append_assoc, List.singleton_append, List.length_append, List.length_singleton] at this
    rw [this]
    simp only [Out.ok_bind, lowFirst]
    rw [or_shift _ b.toNat_lt]

theorem byteStep_eq (pre : Bytes) (b : UInt8) (rest : Bytes) (c : Nat) :
    byteStep (pre ++ b :: rest) pre.length c = .ok (register c [b]) := by
  have hm : (c ^^^ b.toNat) % 2 ^ 8 < 256 := Nat.mod_lt _ (by decide)
  simp only [byteStep, byteAt_eq, Out.ok_bind, mask, entry_eq (show 0 < 8 by decide) hm]
  rw [register]
  simp only [List.length_singleton, lowFirst, Nat.zero_shiftLeft, Nat.xor_zero]
  rw [show 8 * 1 = 8 + 0 from rfl, shifts_split 0 8 (c ^^^ b.toNat), Nat.shiftRight_xor_distrib]
  rw [show b.toNat >>> 8 = 0 by rw [Nat.shiftRight_eq_div_pow]; exact Nat.div_eq_of_lt b.toNat_lt, Nat.xor_zero]
  rfl

theorem tailLoop_eq : ∀ (x pre rest : Bytes) (c : Nat), tailLoop (pre ++ (x ++ rest)) x.length pre.length c = .ok (register c x)
  | [], _, _, c => by simp [tailLoop, register, shifts, lowFirst]
  | b :: x, pre, rest, c => by
    rw [List.length_cons, tailLoop, List.cons_append, byteStep_eq]
    have := tailLoop_eq x (pre ++ [b]) rest (register c [b])
    rw [List.append_assoc, List.singleton_append, List.length_append, List.length_singleton] at this
    simp only [Out.ok_bind]
    rw [this, ← register_append]
    rfl

/-- Four table entries for a word. -/
theorem four (n x : Nat) :
    shifts (8 * (n + 4)) x = shifts (8 * (n + 4)) (x % 2 ^ 8) ^^^ (shifts (8 * (n + 3)) ((x >>> 8) % 2 ^ 8) ^^^
      (shifts (8 * (n + 2)) ((x >>> 16) % 2 ^ 8) ^^^ shifts (8 * (n + 1)) (x >>> 24))) := by
  have e4 : 8 * (n + 4) = 8 + 8 * (n + 3) := by omega
  have e3 : 8 * (n + 3) = 8 + 8 * (n + 2) := by omega
  have e2 : 8 * (n + 2) = 8 + 8 * (n + 1) := by omega
  rw [e4, shifts_split _ 8 x]
  congr 1
  rw [e3, shifts_split _ 8 (x >>> 8)]
  congr 1
  rw [← Nat.shiftRight_add, e2, shifts_split _ 8 (x >>> (8 + 8)), ← Nat.shiftRight_add]

theorem eight_bytes (x : Bytes) (h : x.length = 8) : ∃ y z, x = y ++ z ∧ y.length = 4 ∧ z.length = 4 :=
  ⟨x.take 4, x.drop 4, by simp, by simp [h], by simp [h]⟩

theorem quadStep_eq {addr : Nat} (pre x rest : Bytes) (ha : (addr + pre.length) % 4 = 0) (h : x.length = 8) {c : Nat}
    (hc : c < 2 ^ 32) : quadStep addr (pre ++ (x ++ rest)) pre.length c = .ok (register c x) := by
  obtain ⟨y, z, rfl, hy, hz⟩ := eight_bytes x h
  have e1 : alignedWord addr (pre ++ (y ++ z ++ rest)) pre.length = .ok (lowFirst y) := by
    rw [alignedWord, if_pos ha]
    have := wordAt_eq y pre (z ++ rest)
    rw [hy] at this
    rw [← this, List.append_assoc]
  have e2 : alignedWord addr (pre ++ (y ++ z ++ rest)) (pre.length + 4) = .ok (lowFirst z) := by
    rw [alignedWord, if_pos (by omega)]
    have := wordAt_eq z (pre ++ y) rest
    rw [hz, List.length_append, hy] at this
    rw [← this]
    simp only [List.append_assoc]
  have hy2 : lowFirst y < 2 ^ 32 := by have := lowFirst_lt y; rwa [hy] at this
  have hz2 : lowFirst z < 2 ^ 32 := by have := lowFirst_lt z; rwa [hz] at this
  have hx : c ^^^ lowFirst y < 2 ^ 32 := Nat.xor_lt_two_pow hc hy2
  have hm : ∀ v, v % 2 ^ 8 < 256 := fun v => Nat.mod_lt _ (by decide)
  have hs : ∀ {v}, v < 2 ^ 32 → v >>> 24 < 256 := fun {v} h => by rw [Nat.shiftRight_eq_div_pow]; omega
  simp only [quadStep, e1, e2, Out.ok_bind, mask]
  rw [entry_eq (show 7 < 8 by decide) (hm _), entry_eq (show 6 < 8 by decide) (hm _), entry_eq (show 5 < 8 by decide) (hm _),
    entry_eq (show 4 < 8 by decide) (hs hx), entry_eq (show 3 < 8 by decide) (hm _), entry_eq (show 2 < 8 by decide) (hm _),
    entry_eq (show 1 < 8 by decide) (hm _), entry_eq (show 0 < 8 by decide) (hs hz2)]
  simp only [Out.ok_bind]
  have hr : register c (y ++ z) = shifts (8 * (4 + 4)) (c ^^^ lowFirst y) ^^^ shifts (8 * (0 + 4)) (lowFirst z) := by
    rw [register_append, register, register, hy, hz, shifts_xor, ← shifts_add]
  rw [hr, four 4 (c ^^^ lowFirst y), four 0 (lowFirst z)]
  simp only [Nat.reduceAdd, Nat.reduceMul]
  congr 1
  ac_rfl

theorem quadLoop_eq {addr : Nat} : ∀ (n : Nat) (x pre rest : Bytes) {c : Nat}, (0 < n → (addr + pre.length) % 4 = 0) →
    x.length = 8 * n → c < 2 ^ 32 → quadLoop addr (pre ++ (x ++ rest)) n pre.length c = .ok (register c x)
  | 0, x, pre, rest, c, _, h, _ => by
    have : x = [] := List.length_eq_zero_iff.1 (by omega)
    simp [this, quadLoop, register, shifts, lowFirst]
  | n + 1, x, pre, rest, c, ha, h, hc => by
    obtain ⟨y, z, rfl, hy, hz⟩ : ∃ y z, x = y ++ z ∧ y.length = 8 ∧ z.length = 8 * n :=
      ⟨x.take 8, x.drop 8, by simp, by simp; omega, by simp; omega⟩
    rw [quadLoop, List.append_assoc, quadStep_eq pre y (z ++ rest) (ha (by omega)) hy hc]
    have := quadLoop_eq (addr := addr) n z (pre ++ y) rest (fun _ => by have := ha (by omega); rw [List.length_append, hy]; omega) hz (register_lt hc y)
    rw [List.append_assoc, List.length_append, hy] at this
    simp only [Out.ok_bind]
    rw [this, register_append]

theorem sseWord_eq (n : Nat) (pre x rest : Bytes) (h : x.length = n) (c : Nat) :
    sseWord (pre ++ (x ++ rest)) n pre.length c = .ok (register c x) := by
  subst h
  rw [sseWord, wordAt_eq]
  simp only [Out.ok_bind, instruction, repeat_shift]
  rfl

theorem sseLoop_eq : ∀ (n : Nat) (x pre rest : Bytes) {c : Nat}, x.length = 8 * n →
    sseLoop (pre ++ (x ++ rest)) n pre.length c = .ok (register c x)
  | 0, x, pre, rest, c, h => by
    have : x = [] := List.length_eq_zero_iff.1 (by omega)
    simp [this, sseLoop, register, shifts, lowFirst]
  | n + 1, x, pre, rest, c, h => by
    obtain ⟨y, z, rfl, hy, hz⟩ : ∃ y z, x = y ++ z ∧ y.length = 8 ∧ z.length = 8 * n :=
      ⟨x.take 8, x.drop 8, by simp, by simp; omega, by simp; omega⟩
    have hw := wordAt_eq y pre (z ++ rest)
    rw [hy] at hw
    rw [sseLoop, List.append_assoc, hw]
    have := sseLoop_eq n z (pre ++ y) rest (c := register c y) hz
    rw [List.append_assoc, List.length_append, hy] at this
    simp only [Out.ok_bind, instruction, repeat_shift]
    rw [register, hy] at this
    have e : register c y = shifts (8 * 8) (c ^^^ lowFirst y) := by rw [register, hy]
    rw [this, register_append c, e]

theorem sseTail_eq (pre x rest : Bytes) (c : Nat) (h : x.length < 8) :
    sseTail (pre ++ (x ++ rest)) x.length pre.length c = .ok (register c x) := by
  have two : ∀ (x y : Bytes) (m n : Nat), x.length = m → y.length = n →
      (sseWord (pre ++ (x ++ y ++ rest)) m pre.length c >>= sseWord (pre ++ (x ++ y ++ rest)) n (pre.length + m)) =
        .ok (register c (x ++ y)) := by
    intro x y m n hx hy
    have h1 := sseWord_eq m pre x (y ++ rest) hx c
    have h2 := sseWord_eq n (pre ++ x) y rest hy (register c x)
    rw [← register_append, List.length_append, hx] at h2
    rw [List.append_assoc] at h2 ⊢
    rw [h1]
    exact h2
  match x, h with
  | [], _ => simp [sseTail, register, shifts, lowFirst]
  | [a], _ => exact sseWord_eq 1 pre [a] rest rfl c
  | [a, b], _ => exact sseWord_eq 2 pre [a, b] rest rfl c
  | [a, b, d], _ => exact two [a] [b, d] 1 2 rfl rfl
  | [a, b, d, e], _ => exact sseWord_eq 4 pre [a, b, d, e] rest rfl c
  | [a, b, d, e, f], _ => exact two [a, b, d, e] [f] 4 1 rfl rfl
  | [a, b, d, e, f, g], _ => exact two [a, b] [d, e, f, g] 2 4 rfl rfl
  | [a, b, d, e, f, g, i], _ =>
    have k1 : sseWord (pre ++ ([a, b, d, e, f, g, i] ++ rest)) 1 pre.length c = .ok (register c [a]) :=
      sseWord_eq 1 pre [a] ([b, d, e, f, g, i] ++ rest) rfl c
    have k2 := sseWord_eq 2 (pre ++ [a]) [b, d] ([e, f, g, i] ++ rest) rfl (register c [a])
    have k3 := sseWord_eq 4 (pre ++ [a, b, d]) [e, f, g, i] rest rfl (register c [a, b, d])
    rw [← register_append, List.length_append, List.append_assoc] at k2 k3
    show (sseWord _ 1 _ c >>= fun v => sseWord _ 2 _ v >>= sseWord _ 4 _) = _
    rw [k1]
    simp only [Out.ok_bind]
    exact (congrArg (· >>= sseWord _ 4 _) k2).trans k3
  | _ :: _ :: _ :: _ :: _ :: _ :: _ :: _ :: _, h => simp at h; omega

end Verif.Crc32c
