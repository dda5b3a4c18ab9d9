import Verif.Model.Lookup3

/-!
# C81: hashing words
-/

namespace Verif.Props
open Verif.Lookup3

theorem xor_undo (x y : UInt32) : x ^^^ y ^^^ y = x := by rw [UInt32.xor_assoc, UInt32.xor_self, UInt32.xor_zero]

/-- A line of `mix` undone. -/
def unline (k x y z : UInt32) : UInt32 × UInt32 := ((x ^^^ rot (z - y) k) + (z - y), z - y)

theorem unline_line {k x y z x' z' : UInt32} (h : line k x y z = (x', z')) : unline k x' y z' = (x, z) := by
  unfold line at h
  simp only [Prod.mk.injEq] at h
  obtain ⟨rfl, rfl⟩ := h
  unfold unline
  rw [UInt32.add_sub_cancel, xor_undo, UInt32.sub_add_cancel]

theorem line_unline {k x y z x' z' : UInt32} (h : unline k x y z = (x', z')) : line k x' y z' = (x, z) := by
  unfold unline at h
  simp only [Prod.mk.injEq] at h
  obtain ⟨rfl, rfl⟩ := h
  unfold line
  simp only
  rw [UInt32.add_sub_cancel, xor_undo, UInt32.sub_add_cancel]

/-- `mix` undone. -/
def unmix (s : Vars) : Vars :=
  let (c, b) := unline 4 s.c s.a s.b
  let (b, a) := unline 19 b c s.a
  let (a, c) := unline 16 a b c
  let (c, b) := unline 8 c a b
  let (b, a) := unline 6 b c a
  let (a, c) := unline 4 a b c
  ⟨a, b, c⟩

theorem unmix_mix (s : Vars) : unmix (mix s) = s := by
  obtain ⟨a, b, c⟩ := s
  unfold mix
  rcases h1 : line 4 a b c with ⟨a1, c1⟩
  simp only [h1]
  rcases h2 : line 6 b c1 a1 with ⟨b2, a2⟩
  simp only [h2]
  rcases h3 : line 8 c1 a2 b2 with ⟨c3, b3⟩
  simp only [h3]
  rcases h4 : line 16 a2 b3 c3 with ⟨a4, c4⟩
  simp only [h4]
  rcases h5 : line 19 b3 c4 a4 with ⟨b5, a5⟩
  simp only [h5]
  rcases h6 : line 4 c4 a5 b5 with ⟨c6, b6⟩
  simp only [unmix, unline_line h6, unline_line h5, unline_line h4, unline_line h3, unline_line h2, unline_line h1]

theorem mix_unmix (s : Vars) : mix (unmix s) = s := by
  obtain ⟨a, b, c⟩ := s
  unfold unmix
  rcases h1 : unline 4 c a b with ⟨c1, b1⟩
  simp only [h1]
  rcases h2 : unline 19 b1 c1 a with ⟨b2, a2⟩
  simp only [h2]
  rcases h3 : unline 16 a2 b2 c1 with ⟨a3, c3⟩
  simp only [h3]
  rcases h4 : unline 8 c3 a3 b2 with ⟨c4, b4⟩
  simp only [h4]
  rcases h5 : unline 6 b4 c4 a3 with ⟨b5, a5⟩
  simp only [h5]
  rcases h6 : unline 4 a5 b5 c4 with ⟨a6, c6⟩
  simp only [mix, line_unline h6, line_unline h5, line_unline h4, line_unline h3, line_unline h2, line_unline h1]

/-- C81: `mix` is reversible: every three values are the result of exactly one three. -/
theorem C81_mix (t : Vars) : ∃ s, mix s = t ∧ ∀ s', mix s' = t → s' = s :=
  ⟨unmix t, mix_unmix t, fun s' h => by rw [← h, unmix_mix]⟩

theorem half_undo {k x x' y : UInt32} (h : half k x y = half k x' y) : x = x' := by
  unfold half at h
  simp only at h
  have h := congrArg (· + rot y k) h
  simp only [UInt32.sub_add_cancel] at h
  have h := congrArg (· ^^^ y) h
  simpa only [xor_undo] using h

/-- C81: `final` loses nothing either: different values stay different. -/
theorem C81_final {s t : Vars} (h : final s = final t) : s = t := by
  obtain ⟨a, b, c⟩ := s
  obtain ⟨a', b', c'⟩ := t
  unfold final at h
  simp only at h
  generalize e1 : half 14 c b = c1 at h
  generalize e1' : half 14 c' b' = c1' at h
  generalize e2 : half 11 a c1 = a2 at h
  generalize e2' : half 11 a' c1' = a2' at h
  generalize e3 : half 25 b a2 = b3 at h
  generalize e3' : half 25 b' a2' = b3' at h
  generalize e4 : half 16 c1 b3 = c4 at h
  generalize e4' : half 16 c1' b3' = c4' at h
  generalize e5 : half 4 a2 c4 = a5 at h
  generalize e5' : half 4 a2' c4' = a5' at h
  generalize e6 : half 14 b3 a5 = b6 at h
  generalize e6' : half 14 b3' a5' = b6' at h
  simp only [Vars.mk.injEq] at h
  obtain ⟨ha, hb, hc⟩ := h
  subst ha hb
  have hc4 := half_undo hc
  subst hc4
  have hb3 := half_undo (e6.trans e6'.symm)
  subst hb3
  have ha2 := half_undo (e5.trans e5'.symm)
  subst ha2
  have hc1 := half_undo (e4.trans e4'.symm)
  subst hc1
  have hb' := half_undo (e3.trans e3'.symm)
  subst hb'
  have ha' := half_undo (e2.trans e2'.symm)
  subst ha'
  have hc' := half_undo (e1.trans e1'.symm)
  subst hc'
  rfl

theorem loop_same : ∀ (k : List UInt32) (n : Nat) (s : Vars), loop2 k n s = loop k n s
  | [], n, s => rfl
  | [_], n, s => rfl
  | [_, _], n, s => rfl
  | x :: y :: z :: k, n, s => by rw [loop, loop2, loop_same k]

theorem loop_ok : ∀ (k : List UInt32) (n : Nat) (s : Vars), n ≤ k.length →
    ∃ k' n' s', loop k n s = .ok (k', n', s') ∧ n' ≤ k'.length ∧ n' ≤ 3 ∧ (n ≠ 0 → n' ≠ 0)
  | [], n, s, h => ⟨[], n, s, by rw [loop, if_neg (by simp at h; omega)]; simp, h, by simp at h; omega, id⟩
  | [a], n, s, h => ⟨[a], n, s, by rw [loop, if_neg (by simp at h; omega)]; simp, h, by simp at h; omega, id⟩
  | [a, b], n, s, h => ⟨[a, b], n, s, by rw [loop, if_neg (by simp at h; omega)]; simp, h, by simp at h; omega, id⟩
  | x :: y :: z :: k, n, s, h => by
    rw [loop]
    split
    · obtain ⟨k', n', s', g1, g2, g3, g4⟩ := loop_ok k (n - 3) (mix ⟨s.a + x, s.b + y, s.c + z⟩) (by simp at h; omega)
      exact ⟨k', n', s', g1, g2, g3, fun _ => g4 (by omega)⟩
    · exact ⟨_, n, s, rfl, h, by omega, id⟩

theorem plus_ok {k : List UInt32} {i : Nat} (h : i < k.length) (v : UInt32) : ∃ x, plus v k i = .ok x := by
  unfold plus
  rw [List.getElem?_eq_getElem h]
  exact ⟨_, rfl⟩

theorem last_ok {k : List UInt32} {n : Nat} (h : n ≤ k.length) (s : Vars) : ∃ s', last k n s = .ok s' := by
  unfold last
  by_cases h0 : n = 0
  · rw [if_pos h0]; exact ⟨_, rfl⟩
  · rw [if_neg h0]
    obtain ⟨a, ea⟩ := plus_ok (k := k) (i := 0) (by omega) s.a
    have hb : ∃ b, (if n ≥ 2 then plus s.b k 1 else .ok s.b) = .ok b := by
      split
      · exact plus_ok (by omega) _
      · exact ⟨_, rfl⟩
    have hc : ∃ c, (if n = 3 then plus s.c k 2 else .ok s.c) = .ok c := by
      split
      · exact plus_ok (by omega) _
      · exact ⟨_, rfl⟩
    obtain ⟨b, eb⟩ := hb
    obtain ⟨c, ec⟩ := hc
    rw [ea, eb, ec]
    exact ⟨_, rfl⟩

/-- C81: neither function reads a word that is not of the key, whatever its length. -/
theorem C81_within (k : List UInt32) (seed seed2 : UInt32) :
    (∃ h, hashword k k.length seed = .ok h) ∧ ∃ h, hashword2 k k.length seed seed2 = .ok h := by
  have key : ∀ s, ∃ k' n' s' t, loop k k.length s = .ok (k', n', s') ∧ last k' n' s' = .ok t := by
    intro s
    obtain ⟨k', n', s', g1, g2, _, _⟩ := loop_ok k k.length s (Nat.le_refl _)
    obtain ⟨t, ht⟩ := last_ok g2 s'
    exact ⟨k', n', s', t, g1, ht⟩
  constructor
  · unfold hashword
    simp only
    generalize ((0xdeadbeef : UInt32) + (UInt32.ofNat k.length <<< 2) + seed : UInt32) = v
    obtain ⟨k', n', s', t, e1, e2⟩ := key ⟨v, v, v⟩
    rw [e1, Out.ok_bind]
    simp only
    rw [e2]
    exact ⟨_, rfl⟩
  · unfold hashword2
    simp only
    generalize ((0xdeadbeef : UInt32) + UInt32.ofNat (k.length * 4 % 2 ^ 64) + seed : UInt32) = v
    obtain ⟨k', n', s', t, e1, e2⟩ := key ⟨v, v, v + seed2⟩
    rw [loop_same, e1, Out.ok_bind]
    simp only
    rw [show last2 k' n' s' = last k' n' s' from rfl, e2]
    exact ⟨_, rfl⟩

theorem shifted (n : Nat) : UInt32.ofNat (n * 4 % 2 ^ 64) = UInt32.ofNat n <<< 2 := by
  apply UInt32.toNat_inj.1
  rw [UInt32.toNat_shiftLeft]
  simp only [UInt32.toNat_ofNat', Nat.shiftLeft_eq]
  simp

/-- C81: with zero as the second seed `my_hashword2` stores in `pc` what `my_hashword` returns, whatever lies behind the pointer. -/
theorem C81_same (k : List UInt32) (length : Nat) (seed : UInt32) :
    hashword k length seed = (hashword2 k length seed 0).bind fun r => .ok r.1 := by
  unfold hashword hashword2
  simp only [shifted, UInt32.add_zero, loop_same]
  generalize ((0xdeadbeef : UInt32) + (UInt32.ofNat length <<< 2) + seed : UInt32) = v
  cases loop k length ⟨v, v, v⟩ with
  | ok x =>
    obtain ⟨k', n', s'⟩ := x
    rw [Out.ok_bind, Out.ok_bind]
    simp only
    rw [show last2 k' n' s' = last k' n' s' from rfl]
    cases last k' n' s' <;> rfl
  | fail => rfl
  | fault f => rfl

/-- Three words added to the variables. -/
def stir (s : Vars) (w : UInt32 × UInt32 × UInt32) : Vars := ⟨s.a + w.1, s.b + w.2.1, s.c + w.2.2⟩

/-- The words of some groups of three. -/
def wordsOf (bs : List (UInt32 × UInt32 × UInt32)) : List UInt32 := bs.flatMap fun b => [b.1, b.2.1, b.2.2]

theorem loop_value : ∀ (bs : List (UInt32 × UInt32 × UInt32)) (t : List UInt32) (s : Vars), 1 ≤ t.length → t.length ≤ 3 →
    loop (wordsOf bs ++ t) (3 * bs.length + t.length) s = .ok (t, t.length, bs.foldl (fun s b => mix (stir s b)) s)
  | [], [x], s, _, _ => by simp [wordsOf, loop]
  | [], [x, y], s, _, _ => by simp [wordsOf, loop]
  | [], [x, y, z], s, _, _ => by simp [wordsOf, loop]
  | [], [], _, h, _ => absurd h (by simp)
  | [], _ :: _ :: _ :: _ :: _, _, _, h => absurd h (by simp)
  | b :: bs, t, s, h1, h3 => by
    have e : wordsOf (b :: bs) ++ t = b.1 :: b.2.1 :: b.2.2 :: (wordsOf bs ++ t) := by simp [wordsOf]
    rw [e, loop, if_pos (by simp only [List.length_cons]; omega)]
    rw [show 3 * (b :: bs).length + t.length - 3 = 3 * bs.length + t.length by simp only [List.length_cons]; omega]
    rw [loop_value bs t _ h1 h3]
    rfl

theorem words_length (bs : List (UInt32 × UInt32 × UInt32)) (t : List UInt32) :
    (wordsOf bs ++ t).length = 3 * bs.length + t.length := by
  rw [List.length_append]
  congr 1
  induction bs with
  | nil => rfl
  | cons b bs ih =>
    have : wordsOf (b :: bs) = b.1 :: b.2.1 :: b.2.2 :: wordsOf bs := rfl
    rw [this]
    simp only [List.length_cons, ih]
    omega

theorem last_value {t : List UInt32} (h1 : 1 ≤ t.length) (h3 : t.length ≤ 3) (s : Vars) :
    last t t.length s = .ok (final (stir s (t[0]?.getD 0, t[1]?.getD 0, t[2]?.getD 0))) := by
  match t, h1, h3 with
  | [x], _, _ => simp [last, plus, stir]
  | [x, y], _, _ => simp [last, plus, stir]
  | [x, y, z], _, _ => simp [last, plus, stir]

/-- C81: the hashes of a key that is not empty: each group of three words but the last is added and mixed in, and the last, of one to
three words, is added and finished. -/
theorem C81_value (bs : List (UInt32 × UInt32 × UInt32)) (t : List UInt32) (h1 : 1 ≤ t.length) (h3 : t.length ≤ 3) (seed seed2 : UInt32)
    {v : UInt32} (hv : v = (0xdeadbeef : UInt32) + UInt32.ofNat (4 * (wordsOf bs ++ t).length) + seed) {s : Vars}
    (hs : s = final (stir (bs.foldl (fun s b => mix (stir s b)) ⟨v, v, v + seed2⟩) (t[0]?.getD 0, t[1]?.getD 0, t[2]?.getD 0))) :
    hashword2 (wordsOf bs ++ t) (wordsOf bs ++ t).length seed seed2 = .ok (s.c, s.b) ∧
      (seed2 = 0 → hashword (wordsOf bs ++ t) (wordsOf bs ++ t).length seed = .ok s.c) := by
  have hv' : v = (0xdeadbeef : UInt32) + UInt32.ofNat ((wordsOf bs ++ t).length * 4 % 2 ^ 64) + seed := by
    rw [hv]
    congr 2
    apply UInt32.toNat_inj.1
    simp only [UInt32.toNat_ofNat']
    omega
  have key : hashword2 (wordsOf bs ++ t) (wordsOf bs ++ t).length seed seed2 = .ok (s.c, s.b) := by
    unfold hashword2
    simp only
    rw [← hv', words_length, loop_same, loop_value bs t _ h1 h3, Out.ok_bind]
    simp only
    rw [show ∀ k n s, last2 k n s = last k n s from fun _ _ _ => rfl, last_value h1 h3, ← hs]
    rfl
  refine ⟨key, ?_⟩
  rintro rfl
  rw [C81_same, key]
  rfl

example : (hashword [] 0 0 = .ok 0xdeadbeef) ∧ hashword [1, 2, 3, 4] 5 7 = .fault .oobRead ∧
    hashword [1, 2, 3, 4] 4 7 = (hashword2 [1, 2, 3, 4] 4 7 0).bind (fun r => .ok r.1) ∧
    hashword [1, 2, 3, 4] 4 7 ≠ hashword [1, 2, 3, 5] 4 7 ∧ mix ⟨1, 2, 3⟩ ≠ mix ⟨1, 2, 4⟩ ∧ final ⟨1, 2, 3⟩ ≠ ⟨1, 2, 3⟩ ∧
    wordsOf [(1, 2, 3)] ++ [4] = [1, 2, 3, 4] ∧ hashword2 [1, 2, 3, 4] 4 7 8 ≠ hashword2 [1, 2, 3, 4] 4 7 0 := by decide +kernel

end Verif.Props
