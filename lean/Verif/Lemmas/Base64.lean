import Verif.Model.Base64
import Verif.Spec.Base64
import Verif.Lemmas.Format

/-!
# Lemmas on base 64
-/

namespace Verif.Base64

open Verif.Spec

theorem encodeValue_eq : ∀ v : UInt8, v.toNat < 64 → encodeValue v = .ok (b64Digit v.toNat) :=
  u8_all (by decide +kernel)

theorem decodeValue_eq : ∀ c : UInt8, decodeValue c =
    match b64Value c with
    | some v => .ok (v : Int)
    | none => if c = 123 then .fault .oobRead else .ok (if c = 61 then -2 else -1) :=
  u8_all (by decide +kernel)

theorem b64Value_lt : ∀ (c : UInt8) (v : Nat), b64Value c = some v → v < 64 := by
  have : ∀ c : UInt8, (b64Value c).all (· < 64) := u8_all (by decide +kernel)
  intro c v h
  simpa [h] using this c

theorem b64Value_digit {n : Nat} (h : n < 64) : b64Value (b64Digit n) = some n := by
  have : ∀ n : Fin 64, b64Value (b64Digit n) = some n.val := by decide +kernel
  exact this ⟨n, h⟩

theorem or_toNat {u v : UInt8} (k a : Nat) (hu : u.toNat = 2 ^ k * a) (hv : v.toNat < 2 ^ k) :
    (u ||| v).toNat = u.toNat + v.toNat := by
  rw [UInt8.toNat_or, hu, Nat.two_pow_add_eq_or_of_lt hv]

theorem hi6 : ∀ x : UInt8, ((x &&& 0xfc) >>> 2).toNat = x.toNat / 4 := u8_all (by decide +kernel)
theorem lo2 : ∀ x : UInt8, ((x &&& 0x03) <<< 4).toNat = 2 ^ 4 * (x.toNat % 4) := u8_all (by decide +kernel)
theorem hi4 : ∀ x : UInt8, ((x &&& 0xf0) >>> 4).toNat = x.toNat / 16 := u8_all (by decide +kernel)
theorem lo4 : ∀ x : UInt8, ((x &&& 0x0f) <<< 2).toNat = 2 ^ 2 * (x.toNat % 16) := u8_all (by decide +kernel)
theorem hi2 : ∀ x : UInt8, ((x &&& 0xc0) >>> 6).toNat = x.toNat / 64 := u8_all (by decide +kernel)
theorem lo6 : ∀ x : UInt8, ((x &&& 0x3f) >>> 0).toNat = x.toNat % 64 := u8_all (by decide +kernel)

theorem lt256 (x : UInt8) : x.toNat < 256 := x.toNat_lt

theorem digit3 (x : UInt8) (m : Nat) (h : m < 65536) :
    encodeValue ((x &&& 0xfc) >>> 2) = .ok (b64Nth (x.toNat * 65536 + m) 3) := by
  have := lt256 x
  rw [encodeValue_eq _ (by rw [hi6]; omega), hi6, b64Nth]
  congr 2; omega

theorem digit2 (x y : UInt8) (m : Nat) (h : m < 256) :
    encodeValue (((x &&& 0x03) <<< 4) ||| ((y &&& 0xf0) >>> 4)) = .ok (b64Nth (x.toNat * 65536 + y.toNat * 256 + m) 2) := by
  have := lt256 y
  have e := or_toNat 4 _ (lo2 x) (v := (y &&& 0xf0) >>> 4) (by rw [hi4]; omega)
  rw [lo2, hi4] at e
  rw [encodeValue_eq _ (by rw [e]; omega), e, b64Nth]
  congr 2; omega

theorem digit1 (x y z : UInt8) :
    encodeValue (((y &&& 0x0f) <<< 2) ||| ((z &&& 0xc0) >>> 6)) = .ok (b64Nth (x.toNat * 65536 + y.toNat * 256 + z.toNat) 1) := by
  have := lt256 z
  have e := or_toNat 2 _ (lo4 y) (v := (z &&& 0xc0) >>> 6) (by rw [hi2]; omega)
  rw [lo4, hi2] at e
  rw [encodeValue_eq _ (by rw [e]; omega), e, b64Nth]
  congr 2; omega

theorem digit0 (x y z : UInt8) :
    encodeValue ((z &&& 0x3f) >>> 0) = .ok (b64Nth (x.toNat * 65536 + y.toNat * 256 + z.toNat) 0) := by
  rw [encodeValue_eq _ (by rw [lo6]; omega), lo6, b64Nth]
  congr 2; omega

theorem last2 (x : UInt8) : encodeValue ((x &&& 0x03) <<< 4) = .ok (b64Nth (x.toNat * 65536) 2) := by
  rw [encodeValue_eq _ (by rw [lo2]; omega), lo2, b64Nth]
  congr 2; omega

theorem last1 (x y : UInt8) : encodeValue ((y &&& 0x0f) <<< 2) = .ok (b64Nth (x.toNat * 65536 + y.toNat * 256) 1) := by
  rw [encodeValue_eq _ (by rw [lo4]; omega), lo4, b64Nth]
  congr 2; omega

/-- Encoding one string at once. -/
theorem encode_whole : ∀ (x : Bytes) (r : UInt8), (do
    let a ← encodeBlock x ⟨.A, r⟩
    let e ← encodeEnd a.2
    .ok (a.1 ++ e)) = Out.ok (b64Text x)
  | [], r => rfl
  | [x], r => by
    have h := digit3 x 0 (by omega)
    rw [Nat.add_zero] at h
    simp only [encodeBlock, encodeEnd, h, last2, Out.ok_bind]
    rfl
  | [x, y], r => by
    have := lt256 y
    have h3 := digit3 x (y.toNat * 256) (by omega)
    have h2 := digit2 x y 0 (by omega)
    rw [Nat.add_zero] at h2
    simp only [encodeBlock, encodeEnd, h3, h2, last1 x y, Out.ok_bind]
    rfl
  | x :: y :: z :: p, r => by
    have h1 := lt256 y
    have h0 := lt256 z
    have h3 := digit3 x (y.toNat * 256 + z.toNat) (by omega)
    have h2 := digit2 x y z.toNat (by omega)
    rw [← Nat.add_assoc] at h3
    have ih := encode_whole p ((z &&& 0x3f) >>> 0)
    simp only [encodeBlock, h3, h2, digit1 x y z, digit0 x y z, Out.ok_bind]
    rw [b64Text, ← Out.ok.injEq] 
    revert ih
    cases encodeBlock p ⟨.A, (z &&& 0x3f) >>> 0⟩ with
    | ok a =>
      simp only [Out.ok_bind]
      cases encodeEnd a.2 with
      | ok e =>
        simp only [Out.ok_bind]
        intro h
        rw [← Out.ok.inj h]; simp
      | fail => intro h; cases h
      | fault => intro h; cases h
    | fail => intro h; cases h
    | fault => intro h; cases h

/-- Encoding in two blocks is encoding their concatenation. -/
theorem encodeBlock_append : ∀ (x y : Bytes) (s : EState), encodeBlock (x ++ y) s = (do
    let a ← encodeBlock x s
    let b ← encodeBlock y a.2
    .ok (a.1 ++ b.1, b.2))
  | [], y, s => by
    simp only [List.nil_append, encodeBlock, Out.ok_bind]
    cases encodeBlock y s <;> rfl
  | f :: x, y, ⟨.A, r⟩ => by
    simp only [List.cons_append, encodeBlock]
    cases encodeValue ((f &&& 0xfc) >>> 2) with
    | ok c =>
      simp only [Out.ok_bind, encodeBlock_append x y]
      cases encodeBlock x _ with
      | ok a => simp only [Out.ok_bind]; cases encodeBlock y a.2 <;> rfl
      | _ => rfl
    | _ => rfl
  | f :: x, y, ⟨.B, r⟩ => by
    simp only [List.cons_append, encodeBlock]
    cases encodeValue (r ||| ((f &&& 0xf0) >>> 4)) with
    | ok c =>
      simp only [Out.ok_bind, encodeBlock_append x y]
      cases encodeBlock x _ with
      | ok a => simp only [Out.ok_bind]; cases encodeBlock y a.2 <;> rfl
      | _ => rfl
    | _ => rfl
  | f :: x, y, ⟨.C, r⟩ => by
    simp only [List.cons_append, encodeBlock]
    cases encodeValue (r ||| ((f &&& 0xc0) >>> 6)) with
    | ok c =>
      simp only [Out.ok_bind]
      cases encodeValue ((f &&& 0x3f) >>> 0) with
      | ok d =>
        simp only [Out.ok_bind, encodeBlock_append x y]
        cases encodeBlock x _ with
        | ok a => simp only [Out.ok_bind]; cases encodeBlock y a.2 <;> rfl
        | _ => rfl
      | _ => rfl
    | _ => rfl

theorem encodeAll_flatten : ∀ (bs : List Bytes) (s : EState), (do
    let rs ← encodeAll bs s
    .ok rs.flatten) = (do
    let a ← encodeBlock bs.flatten s
    let e ← encodeEnd a.2
    Out.ok (a.1 ++ e))
  | [], s => by
    simp only [encodeAll, List.flatten_nil, encodeBlock, Out.ok_bind]
    cases encodeEnd s <;> simp
  | b :: bs, s => by
    rw [List.flatten_cons, encodeBlock_append]
    simp only [encodeAll]
    cases encodeBlock b s with
    | ok a =>
      have ih := encodeAll_flatten bs a.2
      simp only [Out.ok_bind]
      revert ih
      cases encodeAll bs a.2 with
      | ok rs =>
        cases encodeBlock bs.flatten a.2 with
        | ok c =>
          simp only [Out.ok_bind]
          cases encodeEnd c.2 with
          | ok e =>
            simp only [Out.ok_bind]
            intro h
            rw [List.flatten_cons, Out.ok.inj h]; simp
          | _ => intro h; cases h
        | _ => intro h; cases h
      | fail =>
        cases encodeBlock bs.flatten a.2 with
        | ok c => simp only [Out.ok_bind]; cases encodeEnd c.2 <;> intro h <;> first | rfl | cases h
        | fail => intro h; rfl
        | fault => intro h; cases h
      | fault f =>
        cases encodeBlock bs.flatten a.2 with
        | ok c => simp only [Out.ok_bind]; cases encodeEnd c.2 <;> intro h <;> first | exact h | cases h
        | fail => intro h; cases h
        | fault => intro h; exact h
    | _ => rfl

/-- The decoder without memory, on the values of the digits: bytes completed, step, partial byte. -/
def digest : List Nat → DStep → UInt8 → Bytes × DStep × UInt8
  | [], s, p => ([], s, p)
  | v :: vs, .a, _ => digest vs .b ((UInt8.ofNat v &&& 0x3f) <<< 2)
  | v :: vs, .b, p =>
    let r := digest vs .c ((UInt8.ofNat v &&& 0x0f) <<< 4)
    ((p ||| ((UInt8.ofNat v &&& 0x30) >>> 4)) :: r.1, r.2)
  | v :: vs, .c, p =>
    let r := digest vs .d ((UInt8.ofNat v &&& 0x03) <<< 6)
    ((p ||| ((UInt8.ofNat v &&& 0x3c) >>> 2)) :: r.1, r.2)
  | v :: vs, .d, p =>
    let r := digest vs .a 0
    ((p ||| (UInt8.ofNat v &&& 0x3f)) :: r.1, r.2)

theorem digest_append : ∀ (x y : List Nat) (s : DStep) (p : UInt8), digest (x ++ y) s p =
    ((digest x s p).1 ++ (digest y (digest x s p).2.1 (digest x s p).2.2).1,
      (digest y (digest x s p).2.1 (digest x s p).2.2).2)
  | [], y, s, p => rfl
  | v :: x, y, .a, p => by rw [List.cons_append, digest, digest_append x y]; rfl
  | v :: x, y, .b, p => by rw [List.cons_append, digest, digest_append x y]; rfl
  | v :: x, y, .c, p => by rw [List.cons_append, digest, digest_append x y]; rfl
  | v :: x, y, .d, p => by rw [List.cons_append, digest, digest_append x y]; rfl

/-- In step a the partial byte does not matter. -/
theorem digest_fst_a (x : List Nat) (p q : UInt8) : (digest x .a p).1 = (digest x .a q).1 := by cases x <;> rfl

theorem peek_eq {buf : Bytes} {i : Nat} {x : UInt8} (h : buf[i]? = some x) : peek buf i = .ok x := by rw [peek, h]

theorem poke_eq {buf : Bytes} {i : Nat} (h : i < buf.length) (x : UInt8) : poke buf i x = .ok (buf.set i x) := if_pos h

theorem orPoke_eq {buf : Bytes} {i : Nat} {y : UInt8} (h : buf[i]? = some y) (x : UInt8) :
    orPoke buf i x = .ok (buf.set i (y ||| x)) := by
  rw [orPoke, peek_eq h, Out.ok_bind, poke_eq (List.getElem?_eq_some_iff.1 h).1]

theorem take_succ_set {buf : Bytes} {i : Nat} (h : i < buf.length) (x : UInt8) :
    (buf.set i x).take (i + 1) = buf.take i ++ [x] := by
  rw [List.take_add_one, List.take_set_of_le (Nat.le_refl _), List.getElem?_set_self h]
  rfl

theorem decodeLoop_spec : ∀ (code : Bytes) (s : DStep) (buf : Bytes) (i : Nat) (p : UInt8), (123 : UInt8) ∉ code → i < buf.length →
    (s = .a ∨ buf[i]? = some p) →
    let r := digest (code.filterMap b64Value) s p
    i + r.1.length < buf.length →
    ∃ buf' q, decodeLoop code s buf i = .ok (i + r.1.length, buf', ⟨r.2.1, q⟩) ∧ buf'.take (i + r.1.length) = buf.take i ++ r.1 ∧
      (r.2.1 = .a ∨ q = r.2.2)
  | [], s, buf, i, p, _, hi, hp, _ => by
    obtain ⟨x, hx⟩ : ∃ x, buf[i]? = some x := ⟨buf[i], List.getElem?_eq_getElem hi⟩
    refine ⟨buf, x, by rw [decodeLoop, peek_eq hx]; rfl, by simp [digest], ?_⟩
    rcases hp with rfl | hp
    · exact .inl rfl
    · rw [hx] at hp; exact .inr (Option.some.inj hp)
  | c :: code, s, buf, i, p, hc, hi, hp, hlen => by
    have hc' : (123 : UInt8) ∉ code := fun h => hc (List.mem_cons_of_mem _ h)
    have hne : c ≠ 123 := fun h => hc (h ▸ List.mem_cons_self)
    have hd := decodeValue_eq c
    cases hv : b64Value c with
    | none =>
      rw [hv] at hd
      simp only [if_neg hne] at hd
      have e : (c :: code).filterMap b64Value = code.filterMap b64Value := List.filterMap_cons_none hv
      rw [decodeLoop, hd]
      simp only [e, Out.ok_bind] at hlen ⊢
      rw [if_pos (by split <;> decide)]
      exact decodeLoop_spec code s buf i p hc' hi hp hlen
    | some v =>
      rw [hv] at hd
      have e : (c :: code).filterMap b64Value = v :: code.filterMap b64Value := List.filterMap_cons_some hv
      rw [decodeLoop, hd]
      simp only [e, Out.ok_bind] at hlen ⊢
      rw [if_neg (by omega)]
      simp only [Int.toNat_natCast]
      -- a completed byte `y` with the next partial byte `z`
      have done : ∀ (s' : DStep) (y z : UInt8) (buf' : Bytes), buf'.length = buf.length → buf'.take (i + 1) = buf.take i ++ [y] →
          (i + (digest (code.filterMap b64Value) s' z).1.length + 1 < buf.length) → (s' = .a ∨ buf'[i + 1]? = some z) →
          ∃ b q, decodeLoop code s' buf' (i + 1) =
              .ok (i + ((digest (code.filterMap b64Value) s' z).1.length + 1), b, ⟨(digest (code.filterMap b64Value) s' z).2.1, q⟩) ∧
            b.take (i + ((digest (code.filterMap b64Value) s' z).1.length + 1)) =
              buf.take i ++ y :: (digest (code.filterMap b64Value) s' z).1 ∧
            ((digest (code.filterMap b64Value) s' z).2.1 = .a ∨ q = (digest (code.filterMap b64Value) s' z).2.2) := by
        intro s' y z buf' hl ht hn hz
        obtain ⟨b, q, h1, h2, h3⟩ := decodeLoop_spec code s' buf' (i + 1) z hc' (by omega) hz (by rw [hl]; omega)
        have ea : i + 1 + (digest (code.filterMap b64Value) s' z).1.length =
            i + ((digest (code.filterMap b64Value) s' z).1.length + 1) := by omega
        rw [ea] at h1 h2
        refine ⟨b, q, h1, ?_, h3⟩
        rw [h2, ht, List.append_assoc]; rfl
      cases s with
      | a =>
        simp only [poke_eq hi, Out.ok_bind]
        obtain ⟨b, q, h1, h2, h3⟩ := decodeLoop_spec code .b (buf.set i ((UInt8.ofNat v &&& 0x3f) <<< 2)) i
          ((UInt8.ofNat v &&& 0x3f) <<< 2) hc' (by rw [List.length_set]; exact hi) (.inr (List.getElem?_set_self hi))
          (by rw [List.length_set]; exact hlen)
        exact ⟨b, q, h1, h2.trans (by rw [List.take_set_of_le (Nat.le_refl _)]; rfl), h3⟩
      | b =>
        have hb : buf[i]? = some p := hp.resolve_left (by simp)
        simp only [digest, List.length_cons] at hlen ⊢
        rw [orPoke_eq hb, Out.ok_bind, poke_eq (by rw [List.length_set]; omega), Out.ok_bind]
        refine done .c _ _ _ (by simp) ?_ (by omega) (.inr ?_)
        · rw [List.take_set_of_le (Nat.le_refl _), take_succ_set hi]
        · exact List.getElem?_set_self (by rw [List.length_set]; omega)
      | c =>
        have hb : buf[i]? = some p := hp.resolve_left (by simp)
        simp only [digest, List.length_cons] at hlen ⊢
        rw [orPoke_eq hb, Out.ok_bind, poke_eq (by rw [List.length_set]; omega), Out.ok_bind]
        refine done .d _ _ _ (by simp) ?_ (by omega) (.inr ?_)
        · rw [List.take_set_of_le (Nat.le_refl _), take_succ_set hi]
        · exact List.getElem?_set_self (by rw [List.length_set]; omega)
      | d =>
        have hb : buf[i]? = some p := hp.resolve_left (by simp)
        simp only [digest, List.length_cons] at hlen ⊢
        rw [orPoke_eq hb, Out.ok_bind]
        exact done .a _ 0 _ (by simp) (take_succ_set hi _) (by omega) (.inl rfl)

theorem sx2 : ∀ x : UInt8, ((x &&& 0x3f) <<< 2).toNat = 2 ^ 2 * (x.toNat % 64) := u8_all (by decide +kernel)
theorem sx4 : ∀ x : UInt8, ((x &&& 0x0f) <<< 4).toNat = 2 ^ 4 * (x.toNat % 16) := u8_all (by decide +kernel)
theorem sx6 : ∀ x : UInt8, ((x &&& 0x03) <<< 6).toNat = 2 ^ 6 * (x.toNat % 4) := u8_all (by decide +kernel)
theorem sh4 : ∀ x : UInt8, ((x &&& 0x30) >>> 4).toNat = x.toNat % 64 / 16 := u8_all (by decide +kernel)
theorem sh2 : ∀ x : UInt8, ((x &&& 0x3c) >>> 2).toNat = x.toNat % 64 / 4 := u8_all (by decide +kernel)
theorem sh0 : ∀ x : UInt8, (x &&& 0x3f).toNat = x.toNat % 64 := u8_all (by decide +kernel)

theorem u8_eq {x : UInt8} {n : Nat} (h : x.toNat = n) : x = UInt8.ofNat n := by rw [← h, UInt8.ofNat_toNat]

theorem byte2 {a b : Nat} (ha : a < 64) (hb : b < 64) (m : Nat) (hm : m < 4096) :
    ((UInt8.ofNat a &&& 0x3f) <<< 2) ||| ((UInt8.ofNat b &&& 0x30) >>> 4) =
      UInt8.ofNat ((a * 64 ^ 3 + b * 64 ^ 2 + m) / 65536 % 256) := by
  apply u8_eq
  have e := or_toNat 2 _ (sx2 (UInt8.ofNat a)) (v := (UInt8.ofNat b &&& 0x30) >>> 4) (by rw [sh4]; omega)
  rw [e, sx2, sh4, UInt8.toNat_ofNat_of_lt' (by simp [UInt8.size]; omega), UInt8.toNat_ofNat_of_lt' (by simp [UInt8.size]; omega)]
  omega

theorem byte1 (a : Nat) {b c : Nat} (hb : b < 64) (hc : c < 64) (m : Nat) (hm : m < 64) :
    ((UInt8.ofNat b &&& 0x0f) <<< 4) ||| ((UInt8.ofNat c &&& 0x3c) >>> 2) =
      UInt8.ofNat ((a * 64 ^ 3 + b * 64 ^ 2 + c * 64 + m) / 256 % 256) := by
  apply u8_eq
  have e := or_toNat 4 _ (sx4 (UInt8.ofNat b)) (v := (UInt8.ofNat c &&& 0x3c) >>> 2) (by rw [sh2]; omega)
  rw [e, sx4, sh2, UInt8.toNat_ofNat_of_lt' (by simp [UInt8.size]; omega), UInt8.toNat_ofNat_of_lt' (by simp [UInt8.size]; omega)]
  omega

theorem byte0 (a b : Nat) {c d : Nat} (hc : c < 64) (hd : d < 64) :
    ((UInt8.ofNat c &&& 0x03) <<< 6) ||| (UInt8.ofNat d &&& 0x3f) =
      UInt8.ofNat ((a * 64 ^ 3 + b * 64 ^ 2 + c * 64 + d) % 256) := by
  apply u8_eq
  have e := or_toNat 6 _ (sx6 (UInt8.ofNat c)) (v := UInt8.ofNat d &&& 0x3f) (by rw [sh0]; omega)
  rw [e, sx6, sh0, UInt8.toNat_ofNat_of_lt' (by simp [UInt8.size]; omega), UInt8.toNat_ofNat_of_lt' (by simp [UInt8.size]; omega)]
  omega

theorem digest_eq : ∀ (vs : List Nat) (p : UInt8), (∀ v ∈ vs, v < 64) → (digest vs .a p).1 = b64Bytes vs
  | [], _, _ => rfl
  | [a], _, _ => rfl
  | [a, b], _, h => by
    have := byte2 (h a (by simp)) (h b (by simp)) 0 (by omega)
    rw [Nat.add_zero] at this
    simp only [digest, this]; rfl
  | [a, b, c], _, h => by
    have hc := h c (by simp)
    have h2 := byte2 (h a (by simp)) (h b (by simp)) (c * 64) (by omega)
    have h1 := byte1 a (h b (by simp)) hc 0 (by omega)
    rw [Nat.add_zero] at h1
    simp only [digest, h2, h1]; rfl
  | a :: b :: c :: d :: vs, _, h => by
    have hc := h c (by simp)
    have hd := h d (by simp)
    have h2 := byte2 (h a (by simp)) (h b (by simp)) (c * 64 + d) (by omega)
    have h1 := byte1 a (h b (by simp)) hc d hd
    rw [← Nat.add_assoc] at h2
    have ih := digest_eq vs 0 fun v hv => h v (by simp [hv])
    simp only [digest, h2, h1, byte0 a b hc hd, ih, b64Bytes]

/-- Digits read in the present group. -/
def DStep.digits : DStep → Nat
  | .a => 0
  | .b => 1
  | .c => 2
  | .d => 3

theorem digest_length : ∀ (vs : List Nat) (s : DStep) (p : UInt8),
    3 * s.digits / 4 + (digest vs s p).1.length = 3 * (s.digits + vs.length) / 4
  | [], s, p => by simp [digest]
  | v :: vs, .a, p => by
    have := digest_length vs .b ((UInt8.ofNat v &&& 0x3f) <<< 2)
    simp only [digest, DStep.digits, List.length_cons] at this ⊢; omega
  | v :: vs, .b, p => by
    have := digest_length vs .c ((UInt8.ofNat v &&& 0x0f) <<< 4)
    simp only [digest, DStep.digits, List.length_cons] at this ⊢; omega
  | v :: vs, .c, p => by
    have := digest_length vs .d ((UInt8.ofNat v &&& 0x03) <<< 6)
    simp only [digest, DStep.digits, List.length_cons] at this ⊢; omega
  | v :: vs, .d, p => by
    have := digest_length vs .a 0
    simp only [digest, DStep.digits, List.length_cons] at this ⊢; omega

theorem digest_bound (vs : List Nat) (s : DStep) (p : UInt8) : (digest vs s p).1.length ≤ (3 * vs.length + 3) / 4 := by
  have := digest_length vs s p
  cases s <;> simp only [DStep.digits] at this <;> omega

theorem decodeAll_spec : ∀ (bs : List (Bytes × Bytes)) (s : DState) (p : UInt8), (s.step = .a ∨ s.plainchar = p) →
    (∀ b ∈ bs, (123 : UInt8) ∉ b.1 ∧ (3 * b.1.length + 3) / 4 < b.2.length) →
    ∃ rs, decodeAll bs s = .ok rs ∧
      rs.flatten = (digest ((bs.map (·.1)).flatten.filterMap b64Value) s.step p).1
  | [], s, p, _, _ => ⟨[], rfl, rfl⟩
  | (code, buf) :: bs, s, p, hs, hb => by
    obtain ⟨hc, hl⟩ := hb _ List.mem_cons_self
    simp only at hc hl
    have h0 : 0 < buf.length := by omega
    have hbound := digest_bound (code.filterMap b64Value) s.step p
    have hfl : (code.filterMap b64Value).length ≤ code.length := List.length_filterMap_le _ _
    obtain ⟨buf', q, h1, h2, h3⟩ := decodeLoop_spec code s.step (buf.set 0 s.plainchar) 0 p hc (by simpa using h0)
      (hs.imp id fun h => by rw [List.getElem?_set_self h0, h]) (by rw [List.length_set]; omega)
    simp only [Nat.zero_add, List.take_zero, List.nil_append] at h1 h2
    obtain ⟨rs, hr, hf⟩ := decodeAll_spec bs ⟨(digest (code.filterMap b64Value) s.step p).2.1, q⟩
      (digest (code.filterMap b64Value) s.step p).2.2 h3 fun b h => hb b (List.mem_cons_of_mem _ h)
    refine ⟨(digest (code.filterMap b64Value) s.step p).1 :: rs, ?_, ?_⟩
    · simp only [decodeAll, decodeBlock, poke_eq h0, Out.ok_bind, h1, hr, h2]
    · simp only [List.flatten_cons, hf, List.map_cons, List.filterMap_append, digest_append]

theorem b64Value_nth (n i : Nat) : b64Value (b64Nth n i) = some (n / 64 ^ i % 64) :=
  b64Value_digit (Nat.mod_lt _ (by omega))

theorem b64Read_text : ∀ x : Bytes, b64Read (b64Text x) = x
  | [] => rfl
  | [x] => by
    have := lt256 x
    simp only [b64Read, b64Text, List.filterMap_cons, b64Value_nth, List.filterMap_nil, show b64Value 61 = none from by decide,
      b64Bytes, List.cons.injEq, and_true]
    exact (u8_eq (by omega)).symm
  | [x, y] => by
    have := lt256 x
    have := lt256 y
    simp only [b64Read, b64Text, List.filterMap_cons, b64Value_nth, List.filterMap_nil, show b64Value 61 = none from by decide,
      b64Bytes, List.cons.injEq, and_true]
    exact ⟨(u8_eq (by omega)).symm, (u8_eq (by omega)).symm⟩
  | x :: y :: z :: r => by
    have := lt256 x
    have := lt256 y
    have := lt256 z
    have ih := b64Read_text r
    rw [b64Read] at ih
    simp only [b64Read, b64Text, List.filterMap_cons, b64Value_nth, b64Bytes, ih, List.cons.injEq, and_true]
    exact ⟨(u8_eq (by omega)).symm, (u8_eq (by omega)).symm, (u8_eq (by omega)).symm⟩

theorem b64Digit_ne (n : Nat) : b64Digit n ≠ 123 := by
  have : ∀ n : Fin 62, b64Digit n ≠ 123 := by decide +kernel
  by_cases h : n < 62
  · exact this ⟨n, h⟩
  · rw [b64Digit, if_neg (by omega), if_neg (by omega), if_neg h]
    split <;> decide

theorem b64Text_plain : ∀ x : Bytes, (123 : UInt8) ∉ b64Text x
  | [] => by simp [b64Text]
  | [x] => by simp [b64Text, b64Nth, Ne.symm (b64Digit_ne _)]
  | [x, y] => by simp [b64Text, b64Nth, Ne.symm (b64Digit_ne _)]
  | x :: y :: z :: r => by simp [b64Text, b64Nth, Ne.symm (b64Digit_ne _), b64Text_plain r]

end Verif.Base64
