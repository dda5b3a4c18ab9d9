import Verif.Lemmas.Order

/-!
# C35, C36: key comparison and the skip-ahead key
-/

namespace Verif.Props
open Verif Verif.Spec

/-- C35: `bytes_compare` decides the lexicographic order (a proper prefix sorts first), reading both
buffers within their lengths. -/
theorem C35_compare_is_lex (a b : Bytes) :
    ∃ r, bytesCompareN a a.length b b.length = .ok r
      ∧ (r = .lt ↔ lexLt a b = true) ∧ (r = .eq ↔ a = b) ∧ (r = .gt ↔ lexLt b a = true) :=
  ⟨_, bytesCompareN_full a b, bytesCompare_lt, bytesCompare_eq, bytesCompare_gt⟩

example : bytesCompareN [1, 2] 2 [1, 2, 0] 3 = .ok .lt ∧ bytesCompareN [200] 1 [100, 9] 2 = .ok .gt := by
  decide

/-- C35: it is a total order: reflexive, antisymmetric, transitive, total. -/
theorem C35_compare_total_order :
    (∀ a, bytesCompare a a = .eq)
    ∧ (∀ a b, bytesCompare a b = (bytesCompare b a).swap)
    ∧ (∀ a b c, bytesCompare a b ≠ .gt → bytesCompare b c ≠ .gt → bytesCompare a c ≠ .gt)
    ∧ (∀ p s : Bytes, s ≠ [] → bytesCompare p (p ++ s) = .lt) := by
  refine ⟨fun a => bytesCompare_eq.mpr rfl, ?_, ?_, ?_⟩
  · intro a b
    cases h : bytesCompare b a with
    | lt => rw [bytesCompare_lt] at h; exact bytesCompare_gt.mpr h
    | eq => rw [bytesCompare_eq] at h; exact bytesCompare_eq.mpr h.symm
    | gt => rw [bytesCompare_gt] at h; exact bytesCompare_lt.mpr h
  · intro a b c h1 h2 h3
    have e : ∀ x y, bytesCompare x y ≠ .gt → lexLe x y = true := by
      intro x y h
      unfold lexLe
      cases hl : lexLt y x with
      | false => rfl
      | true => exact absurd (bytesCompare_gt.mpr hl) h
    have := lexLe_trans (e a b h1) (e b c h2)
    rw [bytesCompare_gt] at h3
    simp [lexLe, h3] at this
  · intro p s hs
    exact bytesCompare_lt.mpr (lexLt_append_right_pos hs)

example : bytesCompare [3, 99, 111, 109, 0] [3, 99, 111, 109, 3, 97] = .lt := by decide

/-- C36: incrementing at `pos` succeeds unless every byte up to `pos` is 0xFF; the bytes after `pos`
are untouched; the new prefix is greater than every key starting with the old prefix, and it is the
smallest string of its length with that property. -/
theorem C36_increment_is_successor (key : Bytes) (pos : Nat) (hp : pos < key.length) :
    ∃ ok pre', incrementKey key pos = .ok (ok, pre' ++ key.drop (pos + 1))
      ∧ pre'.length = pos + 1
      ∧ (ok = false ↔ ∀ b ∈ key.take (pos + 1), b = 255)
      ∧ (ok = true →
          (∀ s, key.take (pos + 1) <+: s → ∀ t, lexLt s (pre' ++ t) = true)
          ∧ (∀ q : Bytes, q.length = pos + 1 → (∀ s, key.take (pos + 1) <+: s → lexLt s q = true) →
              lexLe pre' q = true)) := by
  refine ⟨(incRev (key.take (pos + 1)).reverse).1, (incRev (key.take (pos + 1)).reverse).2.reverse,
    by simp [incrementKey, hp], by simp [incRev_length]; omega, ?_, ?_⟩
  · rw [incRev_fst]; simp
  · intro hok
    obtain ⟨p, b, n, h1, h2, h3⟩ := incRev_shape hok
    rw [List.reverse_reverse] at h1
    rw [h2, h1]
    have hlen : (key.take (pos + 1)).length = pos + 1 := by simp; omega
    constructor
    · rintro s ⟨u, rfl⟩ t
      simp only [List.append_assoc, List.cons_append]
      exact lexLt_of_diff p (by rw [u8_succ h3]; omega) _ _
    · intro q hq hmin
      -- q is above the old prefix, so it is at or above its successor
      have hlow : lexLt (p ++ b :: List.replicate n 255) q = true := hmin _ (List.prefix_refl _)
      rw [h1] at hlen
      rcases lexLt_cases hlow with ⟨s, hs, rfl⟩ | ⟨c, x, y, s, t, e1, rfl, hxy⟩
      · exfalso
        rw [List.length_append] at hq
        have := List.length_pos_iff.mpr hs
        omega
      · -- the first difference lies at or before the incremented byte
        have hle : c.length ≤ p.length := by
          apply Classical.byContradiction
          intro hcon
          have hx : (p ++ b :: List.replicate n 255)[c.length]? = some x := by
            rw [e1]; simp
          rw [List.getElem?_append_right (by omega)] at hx
          have : c.length - p.length = (c.length - p.length - 1) + 1 := by omega
          rw [this, List.getElem?_cons_succ, List.getElem?_replicate] at hx
          split at hx
          · have := Option.some.inj hx
            subst this
            have := y.toNat_lt
            have : (255 : UInt8).toNat = 255 := rfl
            omega
          · cases hx
        by_cases hc : c.length = p.length
        · have hcp : c = p ∧ x :: s = b :: List.replicate n 255 := by
            have := List.append_inj e1.symm hc
            exact this
          obtain ⟨rfl, hxs⟩ := hcp
          have hxb : x = b := (List.cons.inj hxs).1
          subst hxb
          rw [lexLe_iff]
          by_cases hy : (x + 1).toNat < y.toNat
          · left; exact lexLt_of_diff c hy _ _
          · have hy' : y = x + 1 := UInt8.toNat_inj.mp (by rw [u8_succ h3] at *; omega)
            subst hy'
            have htl : t.length = n := by
              simp only [List.length_append, List.length_cons, List.length_replicate] at hq hlen
              omega
            have hz : lexLe (List.replicate n 0) t = true := by
              rw [← htl]; exact zeros_le t
            rcases lexLe_iff.mp hz with h | h
            · left; rw [lexLt_append_left, lexLt_cons]; exact .inr ⟨rfl, h⟩
            · right; rw [h]
        · -- earlier difference: q is above already there
          obtain ⟨d, hd⟩ : c <+: p := by
            have h4 : c <+: p ++ b :: List.replicate n 255 := ⟨x :: s, e1.symm⟩
            exact List.prefix_of_prefix_length_le h4 (List.prefix_append _ _) hle
          have hdne : d ≠ [] := by
            rintro rfl; simp at hd; rw [hd] at hc; exact hc rfl
          cases d with
          | nil => exact absurd rfl hdne
          | cons d0 ds =>
            have hx0 : d0 = x := by
              rw [← hd, List.append_assoc] at e1
              have := List.append_cancel_left e1
              exact (List.cons.inj this).1
            subst hx0
            rw [← hd, lexLe_iff]
            left
            simp only [List.append_assoc, List.cons_append]
            exact lexLt_of_diff c hxy _ _

example : incrementKey [0, 3, 99, 255, 255, 7] 4 = .ok (true, [0, 3, 100, 0, 0, 7])
    ∧ (incrementKey [255, 255, 1] 1) = .ok (false, [0, 0, 1]) := by decide

end Verif.Props
