import Verif.Lemmas.QueryCore

/-!
# Lemmas: skipping ahead over names
-/

namespace Verif
open Spec

theorem lexLe_255 {n : Nat} {y : Bytes} (h : lexLe (List.replicate n 255) y = true) :
    List.replicate n 255 <+: y := by
  induction n generalizing y with
  | zero => exact List.nil_prefix
  | succ n ih =>
    rw [List.replicate_succ] at h ⊢
    cases y with
    | nil => simp [lexLe, lexLt] at h
    | cons z zs =>
      rw [lexLe_iff, lexLt_cons] at h
      have hz : z.toNat ≤ 255 := by have := z.toNat_lt; omega
      have h255 : (255 : UInt8).toNat = 255 := rfl
      have : z = 255 ∧ lexLe (List.replicate n 255) zs = true := by
        rcases h with (h | ⟨h1, h2⟩) | h
        · omega
        · exact ⟨h1.symm, lexLe_iff.2 (.inl h2)⟩
        · rw [List.cons.injEq] at h
          exact ⟨h.1.symm, lexLe_iff.2 (.inr h.2)⟩
      rw [this.1]
      exact (List.cons_prefix_cons).2 ⟨rfl, ih this.2⟩

theorem lexLt_zeros {n : Nat} {y : Bytes} (h : lexLt y (List.replicate n 0) = true) :
    ∃ j, j < n ∧ y = List.replicate j 0 := by
  induction n generalizing y with
  | zero => simp at h
  | succ n ih =>
    rw [List.replicate_succ] at h
    cases y with
    | nil => exact ⟨0, by omega, rfl⟩
    | cons z zs =>
      rw [lexLt_cons] at h
      have h0 : (0 : UInt8).toNat = 0 := rfl
      rcases h with h | ⟨h1, h2⟩
      · omega
      · obtain ⟨j, hj, rfl⟩ := ih h2
        exact ⟨j + 1, by omega, by rw [h1, List.replicate_succ]⟩

/-- What lies between a prefix and its successor: continuations of the prefix, and short pieces of
the successor. -/
theorem between_succ {c : Bytes} {b : UInt8} {n : Nat} {x : Bytes} (hb : b + 1 ≠ 0)
    (h1 : lexLe (c ++ b :: List.replicate n 255) x = true)
    (h2 : lexLt x (c ++ (b + 1) :: List.replicate n 0) = true) :
    c ++ b :: List.replicate n 255 <+: x ∨ ∃ j, j < n ∧ x = c ++ (b + 1) :: List.replicate j 0 := by
  have hc : c <+: x := prefix_convex (y := (b + 1) :: List.replicate n 0)
    (lexLe_trans (lexLe_append c _) h1) (lexLe_iff.2 (.inl h2))
  obtain ⟨y, rfl⟩ := hc
  rw [lexLt_append_left] at h2
  rw [lexLe, lexLt_append_left, ← lexLe] at h1
  cases y with
  | nil => simp [lexLe, lexLt] at h1
  | cons z zs =>
    rw [lexLt_cons, u8_succ hb] at h2
    rw [lexLe_iff, lexLt_cons] at h1
    rcases h2 with h2 | ⟨rfl, h2⟩
    · left
      have hz : z = b ∧ lexLe (List.replicate n 255) zs = true := by
        rcases h1 with (h1 | ⟨h1, h3⟩) | h1
        · omega
        · exact ⟨h1.symm, lexLe_iff.2 (.inl h3)⟩
        · rw [List.cons.injEq] at h1
          exact ⟨h1.1.symm, lexLe_iff.2 (.inr h1.2)⟩
      rw [hz.1, List.prefix_append_right_inj, List.cons_prefix_cons]
      exact ⟨rfl, lexLe_255 hz.2⟩
    · right
      obtain ⟨j, hj, rfl⟩ := lexLt_zeros h2
      exact ⟨j, hj, rfl⟩

theorem incRev_ok_cons (t : UInt8) (ht : t ≠ 255) (p : Bytes) : (incRev (t :: p).reverse).1 = true := by
  cases h : (incRev (t :: p).reverse).1 with
  | true => rfl
  | false =>
    rw [incRev_fst] at h
    exact absurd (h t (by simp)) ht

/-- The skip-ahead key of a prefix with an ordinary type byte. -/
theorem increment_shape {key : Bytes} {t : UInt8} (ht : t ≠ 255) {p rest : Bytes} (hk : key = t :: p ++ rest) :
    ∃ c b n k, t :: p = c ++ b :: List.replicate n 255 ∧ b + 1 ≠ 0 ∧
      k = c ++ (b + 1) :: List.replicate n 0 ∧
      incrementKey key ((t :: p).length - 1) = .ok (true, k ++ rest) := by
  have hok := incRev_ok_cons t ht p
  obtain ⟨c, b, n, h1, h2, h3⟩ := incRev_shape hok
  rw [List.reverse_reverse] at h1
  refine ⟨c, b, n, _, h1, h3, rfl, ?_⟩
  have hl : (t :: p).length - 1 + 1 = (t :: p).length := by simp
  unfold incrementKey
  rw [if_pos (by rw [hk]; simp only [List.length_append, List.length_cons]; omega), hl, hk,
    List.take_left, List.drop_left]
  simp only [hok, h2]

theorem shape_lt {c : Bytes} {b : UInt8} {n : Nat} (hb : b + 1 ≠ 0) (s t : Bytes) :
    lexLt (c ++ b :: List.replicate n 255 ++ s) (c ++ (b + 1) :: List.replicate n 0 ++ t) = true := by
  simp only [List.append_assoc, List.cons_append]
  exact lexLt_of_diff c (by rw [u8_succ hb]; omega) _ _

/-- A key made of a type byte and a name below the labels `m`, and something more. -/
def NameKey (t : UInt8) (m : Name) (key : Bytes) (nm : Name) : Prop :=
  legalLabels nm ∧ m <+: nm ∧ ∃ rest, key = t :: (wire nm ++ rest)

theorem flat_length_le {m nm : Name} (h : m <+: nm) : (flat m).length ≤ (flat nm).length := by
  obtain ⟨s, rfl⟩ := h
  rw [flat_append, List.length_append]; omega

theorem byteAt_append (a : Bytes) (b : UInt8) (s : Bytes) : byteAt (a ++ b :: s) a.length = .ok b := by
  rw [byteAt_lt (by simp)]; simp

theorem singleLabel_same {t : UInt8} {m : Name} {rest v : Bytes} :
    filterSingleLabel (t :: flat m).length (t :: (wire m ++ rest), v) = .seekTo (t :: flat m ++ [1]) := by
  have hk : t :: (wire m ++ rest) = (t :: flat m) ++ 0 :: rest := by simp [wire]
  unfold filterSingleLabel
  simp only [hk]
  rw [if_neg (by simp), byteAt_append]
  simp only [if_true]
  unfold singleLabelSeek
  have ht' : (t :: flat m ++ 0 :: rest).take ((t :: flat m).length + 1) = t :: (flat m ++ [0]) := by
    have e : t :: flat m ++ 0 :: rest = (t :: (flat m ++ [0])) ++ rest := by simp
    rw [e]
    have : (t :: flat m).length + 1 = (t :: (flat m ++ [0])).length := by simp
    rw [this, List.take_left]
  rw [ht']
  unfold incrementKey
  rw [if_pos (by simp)]
  have e2 : (t :: (flat m ++ [0])).take ((t :: flat m).length + 1 - 1 + 1) = t :: (flat m ++ [0]) := by
    apply List.take_of_length_le; simp
  have e3 : (t :: (flat m ++ [0])).drop ((t :: flat m).length + 1 - 1 + 1) = [] := by
    apply List.drop_of_length_le; simp
  rw [e2, e3]
  simp [incRev]

theorem singleLabel_one {t : UInt8} {m : Name} {l : Bytes} (hl : legalLabel l) {rest v : Bytes} :
    filterSingleLabel (t :: flat m).length (t :: (wire (m ++ [l]) ++ rest), v) = .pass := by
  have hlen := label_len_toNat hl
  have hk : t :: (wire (m ++ [l]) ++ rest) = (t :: flat m) ++ UInt8.ofNat l.length :: (l ++ 0 :: rest) := by
    simp [wire_append, wire_cons]
  unfold filterSingleLabel
  simp only [hk]
  rw [if_neg (by simp), byteAt_append]
  have h0 : UInt8.ofNat l.length ≠ 0 := by
    intro h; rw [h] at hlen; have := hl.1; simp at hlen; simp [← hlen] at this
  have e : (t :: flat m).length + (UInt8.ofNat l.length).toNat + 1 =
      ((t :: flat m) ++ UInt8.ofNat l.length :: l).length := by
    rw [hlen]; simp; omega
  have e2 : (t :: flat m) ++ UInt8.ofNat l.length :: (l ++ 0 :: rest) =
      ((t :: flat m) ++ UInt8.ofNat l.length :: l) ++ 0 :: rest := by simp
  simp only [if_neg h0]
  rw [e, e2, if_neg (by simp), byteAt_append]
  simp

theorem singleLabel_more {t : UInt8} (ht : t ≠ 255) {m : Name} {l l2 : Bytes} {ls : Name}
    (hl : legalLabel l) (hl2 : legalLabel l2) {rest v : Bytes} :
    ∃ c b n k, t :: flat (m ++ [l]) = c ++ b :: List.replicate n 255 ∧ b + 1 ≠ 0 ∧
      k = c ++ (b + 1) :: List.replicate n 0 ∧
      filterSingleLabel (t :: flat m).length (t :: (wire (m ++ l :: l2 :: ls) ++ rest), v) = .seekTo k := by
  have hlen := label_len_toNat hl
  have hlen2 := label_len_toNat hl2
  have hk : t :: (wire (m ++ l :: l2 :: ls) ++ rest) =
      (t :: flat m) ++ UInt8.ofNat l.length :: (l ++ UInt8.ofNat l2.length :: (l2 ++ wire ls ++ rest)) := by
    simp [wire_append, wire_cons]
  have e : (t :: flat m).length + (UInt8.ofNat l.length).toNat + 1 =
      ((t :: flat m) ++ UInt8.ofNat l.length :: l).length := by
    rw [hlen]; simp; omega
  have e2 : (t :: flat m) ++ UInt8.ofNat l.length :: (l ++ UInt8.ofNat l2.length :: (l2 ++ wire ls ++ rest)) =
      ((t :: flat m) ++ UInt8.ofNat l.length :: l) ++ UInt8.ofNat l2.length :: (l2 ++ wire ls ++ rest) := by
    simp
  have ep : t :: flat (m ++ [l]) = (t :: flat m) ++ UInt8.ofNat l.length :: l := by
    simp [flat]
  have h0 : ∀ {x : Bytes}, legalLabel x → UInt8.ofNat x.length ≠ 0 := by
    intro x hx h
    have hlen := label_len_toNat hx
    rw [h] at hlen; have := hx.1; simp at hlen; simp [← hlen] at this
  obtain ⟨c, b, n, k, h1, h2, h3, h4⟩ := increment_shape (key := t :: flat (m ++ [l])) ht
    (p := flat (m ++ [l])) (rest := []) (by simp)
  rw [List.append_nil] at h4
  refine ⟨c, b, n, k, h1, h2, h3, ?_⟩
  unfold filterSingleLabel
  simp only [hk]
  rw [if_neg (by simp), byteAt_append]
  simp only [if_neg (h0 hl)]
  rw [e, e2, if_neg (by simp), byteAt_append]
  simp only [if_neg (h0 hl2)]
  unfold singleLabelSeek
  rw [List.take_left, ← ep, h4]

/-- The single-label filter accepts exactly the names with one more label. -/
theorem singleLabel_passes {t : UInt8} (ht : t ≠ 255) {m nm : Name} {key v : Bytes}
    (h : NameKey t m key nm) :
    passes (filterSingleLabel (t :: flat m).length) (key, v) = true ↔ ∃ l, nm = m ++ [l] := by
  obtain ⟨hn, ⟨s, rfl⟩, rest, rfl⟩ := h
  rw [legalLabels_append] at hn
  match s, hn with
  | [], _ =>
    rw [List.append_nil, passes, singleLabel_same]
    simp
  | [l], hn =>
    have hl : legalLabel l := hn.2 l (by simp)
    rw [passes, singleLabel_one hl]
    simp
  | l :: l2 :: ls, hn =>
    obtain ⟨c, b, n, k, -, -, -, h4⟩ := singleLabel_more (m := m) (ls := ls) (rest := rest) (v := v) ht
      (hn.2 l (by simp)) (hn.2 l2 (by simp))
    rw [passes, h4]
    simp

/-- Skipping ahead in the single-label filter omits nothing, on rows whose keys are names below `m`. -/
theorem good_singleLabel {t : UInt8} (ht : t ≠ 255) {m : Name} {T : Table}
    (hT : ∀ kv ∈ T, ∃ nm, NameKey t m kv.1 nm) :
    Good (filterSingleLabel (t :: flat m).length) (passes (filterSingleLabel (t :: flat m).length)) T := by
  rintro ⟨key, v⟩ hkv
  obtain ⟨nm, hnk⟩ := hT _ hkv
  have hpass := singleLabel_passes (v := v) ht hnk
  obtain ⟨hn, ⟨s, rfl⟩, rest, hkey⟩ := hnk
  dsimp only at hkey
  subst hkey
  rw [legalLabels_append] at hn
  match s, hn, hpass with
  | [], hn, hpass =>
    rw [List.append_nil] at hpass ⊢
    rw [singleLabel_same]
    dsimp only
    refine ⟨?_, ?_, ?_⟩
    · rw [← Bool.not_eq_true, hpass]; simp
    · have e : t :: (wire m ++ rest) = (t :: flat m) ++ 0 :: rest := by simp [wire]
      rw [e]; exact lexLt_of_diff _ (by decide) _ _
    · rintro ⟨x, vx⟩ hx hle hlt
      obtain ⟨nm', hnk'⟩ := hT _ hx
      rw [← Bool.not_eq_true, singleLabel_passes ht hnk']
      obtain ⟨hn', ⟨s', rfl⟩, rest', hx'⟩ := hnk'
      rw [legalLabels_append] at hn'
      dsimp only at hx' hlt
      rintro ⟨l, hl⟩
      have hs := List.append_cancel_left hl
      subst hs
      have hl' := hn'.2 l (by simp)
      have e : x = (t :: flat m) ++ UInt8.ofNat l.length :: (l ++ 0 :: rest') := by
        rw [hx']; simp [wire_append, wire_cons]
      rw [e] at hlt
      rw [lexLt_append_left, lexLt_cons, label_len_toNat hl'] at hlt
      have h1 : (1 : UInt8).toNat = 1 := rfl
      have := hl'.1
      rcases hlt with h | ⟨_, h⟩
      · omega
      · simp at h
  | [l], hn, hpass =>
    have hl : legalLabel l := hn.2 l (by simp)
    rw [singleLabel_one hl]
    exact hpass.2 ⟨l, rfl⟩
  | l :: l2 :: ls, hn, hpass =>
    have hl := hn.2 l (by simp)
    have hl2 := hn.2 l2 (by simp)
    obtain ⟨c, b, n, k, h1, h2, h3, h4⟩ := singleLabel_more (m := m) (ls := ls) (rest := rest) (v := v) ht
      hl hl2
    rw [h4]
    dsimp only
    have ekey : t :: (wire (m ++ l :: l2 :: ls) ++ rest) =
        t :: flat (m ++ [l]) ++ (UInt8.ofNat l2.length :: (l2 ++ wire ls ++ rest)) := by
      simp [wire_append, wire_cons, flat]
    refine ⟨?_, ?_, ?_⟩
    · rw [← Bool.not_eq_true, hpass]
      rintro ⟨l', h⟩
      have := congrArg List.length h
      simp at this
    · have := shape_lt (c := c) (b := b) (n := n) h2
        (UInt8.ofNat l2.length :: (l2 ++ wire ls ++ rest)) []
      rw [← h1, List.append_nil, ← h3] at this
      rw [ekey]; exact this
    · rintro ⟨x, vx⟩ hx hle hlt
      dsimp only at hle hlt
      obtain ⟨nm', hnk'⟩ := hT _ hx
      rw [← Bool.not_eq_true, singleLabel_passes ht hnk']
      obtain ⟨hn', ⟨s', rfl⟩, rest', hx'⟩ := hnk'
      rw [legalLabels_append] at hn'
      dsimp only at hx'
      rintro ⟨l', he⟩
      have hs := List.append_cancel_left he
      subst hs
      have hl' := hn'.2 l' (by simp)
      have ex : x = t :: flat m ++ UInt8.ofNat l'.length :: (l' ++ 0 :: rest') := by
        rw [hx']; simp [wire_append, wire_cons]
      have ep : t :: flat (m ++ [l]) = t :: flat m ++ UInt8.ofNat l.length :: l := by
        simp [flat]
      have hpx : lexLe (c ++ b :: List.replicate n 255) x = true := by
        rw [← h1]
        refine lexLe_trans (lexLe_append _ _) (ekey ▸ hle)
      rw [h3] at hlt
      rcases between_succ h2 hpx hlt with hp | ⟨j, hj, hxj⟩
      · rw [← h1, ep] at hp
        rw [ex, List.prefix_append_right_inj, List.cons_prefix_cons] at hp
        obtain ⟨hlen, hp⟩ := hp
        have hlen' : l.length = l'.length := by
          rw [← label_len_toNat hl, hlen, label_len_toNat hl']
        obtain ⟨y, hy⟩ := hp
        obtain ⟨rfl, rfl⟩ := List.append_inj hy hlen'
        rw [ekey, ex, ep] at hle
        have e3 : t :: flat m ++ UInt8.ofNat l.length :: (l ++ 0 :: rest') =
            (t :: flat m ++ UInt8.ofNat l.length :: l) ++ 0 :: rest' := by simp
        rw [e3, lexLe, lexLt_append_left, ← lexLe, lexLe_iff, lexLt_cons, label_len_toNat hl2] at hle
        have h0 : (0 : UInt8).toNat = 0 := rfl
        have := hl2.1
        rcases hle with (h | ⟨h, -⟩) | h
        · omega
        · have := label_len_toNat hl2; rw [h] at this; simp at this; omega
        · rw [List.cons.injEq] at h
          have h := h.1
          have := label_len_toNat hl2; rw [h] at this; simp at this; omega
      · have hlx : x.length < (t :: flat (m ++ [l])).length := by
          rw [hxj, h1]; simp; omega
        rw [ex, ep] at hlx
        simp only [List.length_append, List.length_cons] at hlx
        rw [← h1, ep, ex, lexLe, lexLt_append_left, ← lexLe, lexLe_iff, lexLt_cons,
          label_len_toNat hl, label_len_toNat hl'] at hpx
        rcases hpx with (h | ⟨h, -⟩) | h
        · omega
        · have := congrArg UInt8.toNat h
          rw [label_len_toNat hl, label_len_toNat hl'] at this; omega
        · rw [List.cons.injEq] at h
          have := congrArg UInt8.toNat h.1
          rw [label_len_toNat hl, label_len_toNat hl'] at this; omega

end Verif
