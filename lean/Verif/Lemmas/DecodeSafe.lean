import Verif.Lemmas.Entry

/-! When decoding stays inside its buffers. -/

namespace Verif
open Spec

/-- Number of bytes that end a varint. -/
def enders (d : Bytes) : Nat := d.countP (fun b => decide (b.toNat < 128))

theorem enders_nil : enders [] = 0 := rfl
theorem enders_cons (b : UInt8) (d : Bytes) :
    enders (b :: d) = (if b.toNat < 128 then 1 else 0) + enders d := by
  simp only [enders, List.countP_cons, decide_eq_true_eq]; omega

theorem lengthPackedLoop_enders (n : Nat) (d : Bytes) (h : 1 ≤ enders d) :
    lengthPackedLoop n d = .ok none
    ∨ ∃ k, lengthPackedLoop n d = .ok (some k) ∧ 1 ≤ k ∧ k ≤ n ∧ k ≤ d.length
        ∧ enders d ≤ enders (d.drop k) + 1 := by
  induction n generalizing d with
  | zero => left; rfl
  | succ n ih =>
    cases d with
    | nil => simp [enders_nil] at h
    | cons b bs =>
      unfold lengthPackedLoop
      by_cases hb : b.toNat < 128
      · right
        refine ⟨1, by rw [if_pos hb], Nat.le_refl _, by omega, by simp, ?_⟩
        rw [enders_cons, if_pos hb]; simp only [List.drop_succ_cons, List.drop_zero]; omega
      · rw [if_neg hb]
        rw [enders_cons, if_neg hb] at h ⊢
        rcases ih bs (by omega) with h1 | ⟨k, h1, h2, h3, h4, h5⟩
        · left; rw [h1]; rfl
        · right
          refine ⟨k + 1, by rw [h1]; rfl, by omega, by omega, by simp; omega, ?_⟩
          simp only [List.drop_succ_cons]; omega

theorem low7_ok {d : Bytes} {i : Nat} (h : i < d.length) : ∃ v, low7 d i = .ok v :=
  ⟨_, low7_eq h⟩

theorem lengthPacked_enders (n : Nat) (d : Bytes) (h : 1 ≤ enders d) :
    ∃ k, varintLengthPacked d n = .ok k ∧ k ≤ n ∧ k ≤ d.length ∧ enders d ≤ enders (d.drop k) + 1 := by
  unfold varintLengthPacked
  rcases lengthPackedLoop_enders n d h with h1 | ⟨k, h1, h2, h3, h4, h5⟩
  · exact ⟨0, by rw [h1]; rfl, by omega, by omega, by simp⟩
  · exact ⟨k, by rw [h1]; rfl, h3, h4, h5⟩

theorem enders_pos_length {d : Bytes} (h : 1 ≤ enders d) : 1 ≤ d.length := by
  cases d with
  | nil => simp [enders_nil] at h
  | cons _ _ => simp

theorem decode32_of_length {d : Bytes} (h : 1 ≤ d.length) {k : Nat}
    (hk : varintLengthPacked d 5 = .ok k) (hk2 : k ≤ d.length) :
    ∃ v, varintDecode32 d = .ok (k, v) := by
  unfold varintDecode32
  rw [hk]
  obtain ⟨v0, e0⟩ := low7_ok (d := d) (i := 0) (by omega)
  simp only [Out.ok_bind, e0]
  split
  · obtain ⟨v1, e1⟩ := low7_ok (d := d) (i := 1) (by omega)
    simp only [Out.ok_bind, e1]
    split
    · obtain ⟨v2, e2⟩ := low7_ok (d := d) (i := 2) (by omega)
      simp only [Out.ok_bind, e2]
      split
      · obtain ⟨v3, e3⟩ := low7_ok (d := d) (i := 3) (by omega)
        simp only [Out.ok_bind, e3]
        split
        · rw [byteAt_lt (by omega)]; exact ⟨_, rfl⟩
        · exact ⟨_, rfl⟩
      · exact ⟨_, rfl⟩
    · exact ⟨_, rfl⟩
  · exact ⟨_, rfl⟩

theorem decode32_enders {d : Bytes} (h : 1 ≤ enders d) :
    ∃ n v, varintDecode32 d = .ok (n, v) ∧ n ≤ d.length ∧ enders d ≤ enders (d.drop n) + 1 := by
  obtain ⟨k, h1, _, h3, h4⟩ := lengthPacked_enders 5 d h
  obtain ⟨v, hv⟩ := decode32_of_length (enders_pos_length h) h1 h3
  exact ⟨k, v, hv, h3, h4⟩

theorem decode64Loop_ok (d : Bytes) : ∀ (k i v : Nat), i + k ≤ d.length →
    ∃ w, decode64Loop d k i v = .ok w := by
  intro k
  induction k with
  | zero => intro i v _; exact ⟨v, rfl⟩
  | succ k ih =>
    intro i v h
    obtain ⟨b, hb⟩ := low7_ok (d := d) (i := i) (by omega)
    unfold decode64Loop
    rw [hb]
    exact ih _ _ (by omega)

theorem decode64_enders {d : Bytes} (h : 1 ≤ enders d) :
    ∃ n v, varintDecode64 d = .ok (n, v) ∧ n ≤ d.length ∧ enders d ≤ enders (d.drop n) + 1 := by
  obtain ⟨k, h1, _, h3, h4⟩ := lengthPacked_enders 10 d h
  unfold varintDecode64
  rw [h1]
  simp only [Out.ok_bind]
  split
  · exact decode32_enders h
  · obtain ⟨v0, e0⟩ := low7_ok (d := d) (i := 0) (by omega)
    obtain ⟨v1, e1⟩ := low7_ok (d := d) (i := 1) (by omega)
    obtain ⟨v2, e2⟩ := low7_ok (d := d) (i := 2) (by omega)
    obtain ⟨v3, e3⟩ := low7_ok (d := d) (i := 3) (by omega)
    simp only [e0, e1, e2, e3, Out.ok_bind]
    obtain ⟨w, hw⟩ := decode64Loop_ok d (k - 4) 4 (v0 ||| (v1 <<< 7) ||| (v2 <<< 14) ||| (v3 <<< 21))
      (by omega)
    rw [hw]
    exact ⟨k, w, rfl, h3, h4⟩

theorem safe_ite {α : Type} {c : Prop} [Decidable c] {a b : Out α} (ha : a.safe) (hb : b.safe) :
    (if c then a else b).safe := by split <;> assumption

theorem safe_ok {α : Type} (a : α) : (Out.ok a).safe := trivial
theorem safe_fail {α : Type} : (Out.fail : Out α).safe := trivial

theorem safe_bind {α β : Type} {a : Out α} {f : α → Out β} (ha : a.safe)
    (hf : ∀ x, a = .ok x → (f x).safe) : (a >>= f).safe := by
  cases a with
  | ok x => exact hf x rfl
  | fail => trivial
  | fault e => exact ha.elim

theorem tripletUnpack_safe {d : Bytes} (h : 3 ≤ enders d) : (tripletUnpack d).safe := by
  unfold tripletUnpack
  obtain ⟨n1, v1, e1, _, g1⟩ := decode64_enders (d := d) (by omega)
  rw [e1]; simp only [Out.ok_bind]
  obtain ⟨n2, v2, e2, _, g2⟩ := decode64_enders (d := d.drop n1) (by omega)
  rw [e2]; simp only [Out.ok_bind]
  rw [List.drop_drop] at g2
  obtain ⟨n3, v3, e3, _, _⟩ := decode64_enders (d := d.drop (n1 + n2)) (by omega)
  rw [e3]; simp only [Out.ok_bind]
  exact safe_ite (safe_ok _) safe_fail

theorem pairUnpack_safe {d : Bytes} (h : 2 ≤ enders d) : (pairUnpack d).safe := by
  unfold pairUnpack
  obtain ⟨n1, v1, e1, _, g1⟩ := decode64_enders (d := d) (by omega)
  rw [e1]; simp only [Out.ok_bind]
  obtain ⟨n2, v2, e2, _, g2⟩ := decode64_enders (d := d.drop n1) (by omega)
  rw [e2]; simp only [Out.ok_bind]
  exact safe_ite (safe_ok _) safe_fail

/-- No run of five bytes with the continuation bit, and none at the very end: at every position a
varint ends within five bytes and within the buffer. -/
def calm (d : Bytes) : Prop :=
  ∀ i < d.length, ∃ j < 5, ∃ b, d[i + j]? = some b ∧ b.toNat < 128

/-- Every name that can be read at some position of the buffer fits `WDNS_MAXLEN_NAME`. -/
def namesFit (d : Bytes) : Prop :=
  ∀ i n rest, parseLabels (d.drop i) = some (n, rest) → (wire n).length ≤ 255

theorem calm_drop {d : Bytes} (h : calm d) (k : Nat) : calm (d.drop k) := by
  intro i hi
  obtain ⟨j, hj, b, hb, hlt⟩ := h (k + i) (by simp at hi; omega)
  exact ⟨j, hj, b, by rw [List.getElem?_drop, ← hb]; congr 1; omega, hlt⟩

theorem namesFit_drop {d : Bytes} (h : namesFit d) (k : Nat) : namesFit (d.drop k) := by
  intro i n rest hp
  rw [List.drop_drop] at hp
  exact h _ _ _ hp

theorem loop_calm : ∀ (n : Nat) (d : Bytes), (∃ j < n, ∃ b, d[j]? = some b ∧ b.toNat < 128) →
    ∃ k, lengthPackedLoop n d = .ok (some k) ∧ 1 ≤ k ∧ k ≤ d.length := by
  intro n
  induction n with
  | zero => rintro d ⟨j, hj, _⟩; omega
  | succ n ih =>
    rintro d ⟨j, hj, b, hb, hlt⟩
    cases d with
    | nil => simp at hb
    | cons c cs =>
      unfold lengthPackedLoop
      by_cases hc : c.toNat < 128
      · exact ⟨1, by rw [if_pos hc], by omega, by simp⟩
      · rw [if_neg hc]
        cases j with
        | zero => simp at hb; subst hb; exact absurd hlt hc
        | succ j =>
          obtain ⟨k, h1, h2, h3⟩ := ih cs ⟨j, by omega, b, by simpa using hb, hlt⟩
          exact ⟨k + 1, by rw [h1]; rfl, by omega, by simp; omega⟩

theorem decode32_calm {d : Bytes} (h : calm d) (hd : d ≠ []) :
    ∃ n v, varintDecode32 d = .ok (n, v) ∧ 1 ≤ n ∧ n ≤ d.length := by
  have hl := List.length_pos_iff.mpr hd
  obtain ⟨j, hj, b, hb, hlt⟩ := h 0 (by omega)
  obtain ⟨k, h1, h2, h3⟩ := loop_calm 5 d ⟨j, hj, b, by simpa using hb, hlt⟩
  have hk : varintLengthPacked d 5 = .ok k := by unfold varintLengthPacked; rw [h1]; rfl
  obtain ⟨v, hv⟩ := decode32_of_length (by omega) hk h3
  exact ⟨k, v, hv, h2, h3⟩

theorem decodeRdatas_safe {p : Bytes} (h : calm p) : (decodeRdatas p).safe := by
  induction hlen : p.length using Nat.strongRecOn generalizing p with
  | _ k ih =>
    rw [decodeRdatas]
    split
    · trivial
    · rename_i hp
      obtain ⟨n, v, e, hn, hn2⟩ := decode32_calm h hp
      rw [e]; simp only
      split
      · trivial
      · split
        · trivial
        · split
          · omega
          · have hl := List.length_pos_iff.mpr hp
            have := ih (p.drop (n + v)).length (by simp; omega) (calm_drop h _) rfl
            revert this
            cases decodeRdatas (p.drop (n + v)) <;> simp [Out.safe]

theorem lenUname_cases (p : Bytes) : lenUname p = .fail
    ∨ ∃ n rest, parseLabels p = some (n, rest) ∧ lenUname p = .ok (wire n).length
        ∧ (wire n).length ≤ p.length := by
  unfold lenUname
  cases h : parseLabels p with
  | none => left; rfl
  | some r =>
    right
    obtain ⟨n, rest⟩ := r
    obtain ⟨_, h2⟩ := parseLabels_some h
    subst h2
    exact ⟨n, rest, rfl, by simp, by simp⟩

theorem decodeName_cases {p : Bytes} (h : ∀ n rest, parseLabels p = some (n, rest) → (wire n).length ≤ 255) :
    decodeName p = .fail ∨ ∃ name len, decodeName p = .ok (name, len) ∧ 1 ≤ len ∧ len ≤ p.length := by
  unfold decodeName
  rcases lenUname_cases p with h1 | ⟨n, rest, h1, h2, h3⟩
  · left; rw [h1]; rfl
  · obtain ⟨hl, rfl⟩ := parseLabels_some h1
    rw [h2]
    simp only [Out.ok_bind, List.take_left, reverseName_wire hl]
    right
    refine ⟨_, _, if_neg ?_, wire_length_pos n, h3⟩
    have := h _ _ h1
    simp only [maxLenName]; omega

theorem decodeRrset_safe (e : Entry) {buf : Bytes} (h : calm buf) (hn : namesFit buf)
    (hne : ∀ n, parseLabels buf = some (n, []) → False) : (decodeRrset e buf).safe := by
  unfold decodeRrset
  rcases decodeName_cases (p := buf) (fun n r hp => hn 0 n r (by simpa using hp)) with h1 | ⟨nm, ln, h1, h2, h3⟩
  · rw [h1]; trivial
  · rw [h1]; simp only [Out.ok_bind]
    by_cases hb : buf.drop ln = []
    · exfalso
      revert h1
      unfold decodeName
      rcases lenUname_cases buf with g | ⟨n, rest, g1, g2, g3⟩
      · rw [g]; simp
      · rw [g2]
        obtain ⟨hl, hbuf⟩ := parseLabels_some g1
        intro h1
        have hln : ln = (wire n).length := by
          simp only [Out.ok_bind] at h1
          cases hr : reverseName (List.take (wire n).length buf) with
          | fail => rw [hr] at h1; simp at h1
          | fault f => rw [hr] at h1; simp at h1
          | ok x =>
            rw [hr] at h1; simp only [Out.ok_bind] at h1
            split at h1
            · cases h1
            · cases h1; rfl
        rw [hbuf, hln, List.drop_left] at hb
        rw [hb] at g1
        exact hne n g1
    · obtain ⟨k, v, e1, k1, k2⟩ := decode32_calm (calm_drop h ln) hb
      rw [e1]; simp only [Out.ok_bind]
      rw [List.drop_drop]
      rcases decodeName_cases (p := buf.drop (ln + k)) (fun n r hp => hn (ln + k) n r hp) with
        g1 | ⟨nm', lb, g1, g2, g3⟩
      · rw [g1]; trivial
      · rw [g1]; simp only [Out.ok_bind]
        exact safe_bind (decodeRdatas_safe (calm_drop (calm_drop h _) _)) (fun _ _ => trivial)

theorem parseLabels_append {buf : Bytes} {n : Name} {rest : Bytes}
    (h : parseLabels buf = some (n, rest)) (s : Bytes) :
    parseLabels (buf ++ s) = some (n, rest ++ s) := by
  obtain ⟨hl, rfl⟩ := parseLabels_some h
  rw [List.append_assoc, parseLabels_wire hl]

theorem decodeRdata_safe (e : Entry) {buf : Bytes} (h : calm buf) (hn : namesFit buf) :
    (decodeRdata e buf).safe := by
  unfold decodeRdata
  split
  · trivial
  · rename_i hl
    simp only
    rw [byteAt_lt (by omega), byteAt_lt (by omega)]
    simp only [Out.ok_bind]
    split
    · trivial
    · rename_i hd
      generalize hm : (buf[buf.length - 2]'(by omega)).toNat
        + 256 * (buf[buf.length - 2 + 1]'(by omega)).toNat = m at *
      have hne : buf.drop m ≠ [] := by
        intro h0; have := congrArg List.length h0; simp at this; omega
      obtain ⟨k, v, e1, k1, k2⟩ := decode32_calm (calm_drop h m) hne
      rw [e1]; simp only [Out.ok_bind]
      split
      · trivial
      · have hfit : ∀ n r, parseLabels ((buf.take (buf.length - 2)).drop (m + k)) = some (n, r) →
            (wire n).length ≤ 255 := by
          intro n r hp
          have h1 := parseLabels_append hp (buf.drop (buf.length - 2))
          rw [← List.drop_append_of_le_length (by simp; omega), List.take_append_drop] at h1
          exact hn _ _ _ h1
        rcases decodeName_cases hfit with g1 | ⟨nm', lb, g1, g2, g3⟩
        · rw [g1]; trivial
        · rw [g1]; trivial

theorem reverseName_safe (b : Bytes) : (reverseName b).safe := by
  unfold reverseName; split <;> trivial

end Verif
