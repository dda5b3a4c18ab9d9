import Verif.Model.Order
import Verif.Spec.Order

/-! Helper lemmas about the lexicographic order. -/

namespace Verif
open Spec

@[simp] theorem lexLt_nil_right (a : Bytes) : lexLt a [] = false := by cases a <;> rfl
@[simp] theorem lexLt_nil_cons (b : UInt8) (bs : Bytes) : lexLt [] (b :: bs) = true := rfl

theorem lexLt_cons (a b : UInt8) (as bs : Bytes) :
    lexLt (a :: as) (b :: bs) = true ↔ a.toNat < b.toNat ∨ a = b ∧ lexLt as bs = true := by
  simp [lexLt]

theorem lexLt_irrefl (a : Bytes) : lexLt a a = false := by
  induction a with
  | nil => rfl
  | cons x xs ih => simp [lexLt, ih]

theorem lexLt_trans {a b c : Bytes} (h1 : lexLt a b = true) (h2 : lexLt b c = true) :
    lexLt a c = true := by
  induction a generalizing b c with
  | nil =>
    cases c with
    | nil => simp at h2
    | cons z zs => rfl
  | cons x xs ih =>
    cases b with
    | nil => simp at h1
    | cons y ys =>
      cases c with
      | nil => simp at h2
      | cons z zs =>
        rw [lexLt_cons] at *
        rcases h1 with h1 | ⟨rfl, h1⟩
        · rcases h2 with h2 | ⟨rfl, h2⟩
          · left; omega
          · left; exact h1
        · rcases h2 with h2 | ⟨rfl, h2⟩
          · left; exact h2
          · right; exact ⟨rfl, ih h1 h2⟩

theorem lexLt_asymm {a b : Bytes} (h1 : lexLt a b = true) : lexLt b a = false := by
  cases h2 : lexLt b a with
  | false => rfl
  | true => have := lexLt_trans h1 h2; rw [lexLt_irrefl] at this; cases this

theorem lexLt_total (a b : Bytes) : lexLt a b = true ∨ a = b ∨ lexLt b a = true := by
  induction a generalizing b with
  | nil => cases b <;> simp
  | cons x xs ih =>
    cases b with
    | nil => right; right; rfl
    | cons y ys =>
      rw [lexLt_cons, lexLt_cons]
      by_cases h : x.toNat < y.toNat
      · exact .inl (.inl h)
      · by_cases h' : y.toNat < x.toNat
        · exact .inr (.inr (.inl h'))
        · have : x = y := UInt8.toNat_inj.mp (by omega)
          subst this
          rcases ih ys with h | rfl | h
          · exact .inl (.inr ⟨rfl, h⟩)
          · exact .inr (.inl rfl)
          · exact .inr (.inr (.inr ⟨rfl, h⟩))

theorem lexLe_iff {a b : Bytes} : lexLe a b = true ↔ lexLt a b = true ∨ a = b := by
  unfold lexLe
  constructor
  · intro h
    rcases lexLt_total a b with h1 | h1 | h1
    · exact .inl h1
    · exact .inr h1
    · simp [h1] at h
  · rintro (h | rfl)
    · simp [lexLt_asymm h]
    · simp [lexLt_irrefl]

theorem lexLe_refl (a : Bytes) : lexLe a a = true := by simp [lexLe, lexLt_irrefl]

theorem lexLt_of_lt_of_le {a b c : Bytes} (h1 : lexLt a b = true) (h2 : lexLe b c = true) :
    lexLt a c = true := by
  rcases lexLe_iff.mp h2 with h2 | rfl
  · exact lexLt_trans h1 h2
  · exact h1

theorem lexLt_of_le_of_lt {a b c : Bytes} (h1 : lexLe a b = true) (h2 : lexLt b c = true) :
    lexLt a c = true := by
  rcases lexLe_iff.mp h1 with h1 | rfl
  · exact lexLt_trans h1 h2
  · exact h2

theorem lexLe_trans {a b c : Bytes} (h1 : lexLe a b = true) (h2 : lexLe b c = true) :
    lexLe a c = true := by
  rcases lexLe_iff.mp h1 with h1 | rfl
  · exact lexLe_iff.mpr (.inl (lexLt_of_lt_of_le h1 h2))
  · exact h2

theorem lexLt_false_iff {a b : Bytes} : lexLt a b = false ↔ lexLe b a = true := by
  simp [lexLe]

/-- Comparing after a common prefix. -/
theorem lexLt_append_left (p a b : Bytes) : lexLt (p ++ a) (p ++ b) = lexLt a b := by
  induction p with
  | nil => rfl
  | cons x xs ih => simp [lexLt, ih]

theorem lexLt_append_right_pos {p s : Bytes} (h : s ≠ []) : lexLt p (p ++ s) = true := by
  have := lexLt_append_left p [] s
  rw [List.append_nil] at this
  rw [this]
  cases s with
  | nil => exact absurd rfl h
  | cons _ _ => rfl

theorem lexLe_append (p s : Bytes) : lexLe p (p ++ s) = true := by
  rw [lexLe_iff]
  cases s with
  | nil => right; simp
  | cons x xs => left; exact lexLt_append_right_pos (by simp)

/-- The first difference decides, whatever follows. -/
theorem lexLt_of_diff (p : Bytes) {a b : UInt8} (h : a.toNat < b.toNat) (s t : Bytes) :
    lexLt (p ++ a :: s) (p ++ b :: t) = true := by
  rw [lexLt_append_left, lexLt_cons]; exact .inl h

/-- For strings of equal length, the order is unaffected by what follows. -/
theorem lexLt_append_of_length_eq {a b : Bytes} (hl : a.length = b.length) (h : lexLt a b = true)
    (s t : Bytes) : lexLt (a ++ s) (b ++ t) = true := by
  induction a generalizing b with
  | nil =>
    have : b = [] := by simpa using hl.symm
    subst this; simp at h
  | cons x xs ih =>
    cases b with
    | nil => simp at hl
    | cons y ys =>
      simp only [List.cons_append]
      rw [lexLt_cons] at *
      rcases h with h | ⟨rfl, h⟩
      · exact .inl h
      · exact .inr ⟨rfl, ih (by simpa using hl) h⟩

/-- A string below `b` either is a prefix of `b` or differs from it first by a smaller byte. -/
theorem lexLt_cases {a b : Bytes} (h : lexLt a b = true) :
    (∃ s, s ≠ [] ∧ b = a ++ s) ∨
      ∃ p x y s t, a = p ++ x :: s ∧ b = p ++ y :: t ∧ x.toNat < y.toNat := by
  induction a generalizing b with
  | nil =>
    cases b with
    | nil => simp at h
    | cons y ys => exact .inl ⟨y :: ys, by simp, rfl⟩
  | cons x xs ih =>
    cases b with
    | nil => simp at h
    | cons y ys =>
      rw [lexLt_cons] at h
      rcases h with h | ⟨rfl, h⟩
      · exact .inr ⟨[], x, y, xs, ys, rfl, rfl, h⟩
      · rcases ih h with ⟨s, hs, rfl⟩ | ⟨p, x', y', s, t, rfl, rfl, hxy⟩
        · exact .inl ⟨s, hs, rfl⟩
        · exact .inr ⟨x :: p, x', y', s, t, rfl, rfl, hxy⟩

theorem cmpBytes_take {a b : Bytes} :
    (let len := if a.length > b.length then b.length else a.length
     cmpBytes (a.take len) (b.take len)) = cmpBytes a b := by
  simp only
  induction a generalizing b with
  | nil => cases b <;> simp [cmpBytes]
  | cons x xs ih =>
    cases b with
    | nil => simp [cmpBytes]
    | cons y ys =>
      have := ih (b := ys)
      have e : (if (x :: xs).length > (y :: ys).length then (y :: ys).length else (x :: xs).length)
          = (if xs.length > ys.length then ys.length else xs.length) + 1 := by
        simp only [List.length_cons]; split <;> split <;> omega
      rw [e]
      simp only [List.take_succ_cons, cmpBytes, this]

theorem bytesCompare_lt {a b : Bytes} : bytesCompare a b = .lt ↔ lexLt a b = true := by
  unfold bytesCompare
  simp only [cmpBytes_take]
  induction a generalizing b with
  | nil => cases b <;> simp [cmpBytes]
  | cons x xs ih =>
    cases b with
    | nil => simp [cmpBytes]
    | cons y ys =>
      rw [lexLt_cons, ← ih]
      simp only [cmpBytes, List.length_cons]
      by_cases h1 : x.toNat < y.toNat
      · simp [h1]
      · by_cases h2 : y.toNat < x.toNat
        · have : x ≠ y := by rintro rfl; omega
          simp [h1, h2, this]
        · have : x = y := UInt8.toNat_inj.mp (by omega)
          subst this
          simp

theorem bytesCompare_eq {a b : Bytes} : bytesCompare a b = .eq ↔ a = b := by
  unfold bytesCompare
  simp only [cmpBytes_take]
  induction a generalizing b with
  | nil => cases b <;> simp [cmpBytes]
  | cons x xs ih =>
    cases b with
    | nil => simp [cmpBytes]
    | cons y ys =>
      rw [List.cons.injEq, ← ih]
      simp only [cmpBytes, List.length_cons]
      by_cases h1 : x.toNat < y.toNat
      · have : x ≠ y := by rintro rfl; omega
        simp [h1, this]
      · by_cases h2 : y.toNat < x.toNat
        · have : x ≠ y := by rintro rfl; omega
          simp [h1, h2, this]
        · have : x = y := UInt8.toNat_inj.mp (by omega)
          subst this
          simp

theorem bytesCompare_gt {a b : Bytes} : bytesCompare a b = .gt ↔ lexLt b a = true := by
  constructor
  · intro h
    rcases lexLt_total a b with h1 | h1 | h1
    · rw [← bytesCompare_lt] at h1; rw [h1] at h; cases h
    · rw [← bytesCompare_eq] at h1; rw [h1] at h; cases h
    · exact h1
  · intro h
    cases hc : bytesCompare a b with
    | lt => rw [bytesCompare_lt] at hc; rw [lexLt_asymm hc] at h; cases h
    | eq => rw [bytesCompare_eq] at hc; subst hc; rw [lexLt_irrefl] at h; cases h
    | gt => rfl

theorem bytesCompareN_full (a b : Bytes) :
    bytesCompareN a a.length b b.length = .ok (bytesCompare a b) := by
  unfold bytesCompareN memcmpN bytesCompare
  simp only
  rw [if_pos (by split <;> constructor <;> omega)]
  simp only [Out.ok_bind]
  repeat' split
  all_goals rfl

/-! ## increment_key -/

theorem u8_succ_zero {b : UInt8} (h : b + 1 = 0) : b.toNat = 255 := by
  have := congrArg UInt8.toNat h
  simp [UInt8.toNat_add] at this
  have := b.toNat_lt; omega

theorem u8_succ {b : UInt8} (h : b + 1 ≠ 0) : (b + 1).toNat = b.toNat + 1 := by
  have h2 : (b + 1).toNat ≠ 0 := fun e => h (UInt8.toNat_inj.mp (by simpa using e))
  simp [UInt8.toNat_add] at h2 ⊢
  have := b.toNat_lt; omega

theorem incRev_length (l : Bytes) : (incRev l).2.length = l.length := by
  induction l with
  | nil => rfl
  | cons b bs ih => simp only [incRev]; split <;> simp [ih]

theorem incRev_fst (l : Bytes) : (incRev l).1 = false ↔ ∀ b ∈ l, b = 255 := by
  induction l with
  | nil => simp [incRev]
  | cons b bs ih =>
    simp only [incRev]
    split
    · rename_i h
      simp only [List.mem_cons, forall_eq_or_imp, Bool.true_eq_false, false_iff, not_and]
      rintro rfl; exact absurd (by decide) h
    · rename_i h
      have : b = 255 := UInt8.toNat_inj.mp (u8_succ_zero (by simpa using h))
      simp [ih, this]

/-- Shape of the result of a successful increment: a prefix unchanged, one byte plus one, then
zeros where all-ones were. -/
theorem incRev_shape {l : Bytes} (h : (incRev l).1 = true) :
    ∃ p b n, l.reverse = p ++ b :: List.replicate n 255
      ∧ (incRev l).2.reverse = p ++ (b + 1) :: List.replicate n 0 ∧ b + 1 ≠ 0 := by
  induction l with
  | nil => simp [incRev] at h
  | cons b bs ih =>
    simp only [incRev] at h ⊢
    split
    · rename_i hb
      exact ⟨bs.reverse, b, 0, by simp, by simp, hb⟩
    · rename_i hb
      rw [if_neg hb] at h
      simp only at h
      obtain ⟨p, c, n, h1, h2, h3⟩ := ih h
      have hb' : b = 255 := UInt8.toNat_inj.mp (u8_succ_zero (by simpa using hb))
      refine ⟨p, c, n + 1, ?_, ?_, h3⟩
      · simp [h1, hb', List.replicate_succ']
      · simp [h2, List.replicate_succ']

theorem zeros_le (t : Bytes) : lexLe (List.replicate t.length 0) t = true := by
  induction t with
  | nil => rfl
  | cons z zs ih =>
    rw [lexLe_iff] at ih ⊢
    rw [List.length_cons, List.replicate_succ, lexLt_cons]
    by_cases hz : z = 0
    · subst hz
      rcases ih with h | h
      · exact .inl (.inr ⟨rfl, h⟩)
      · exact .inr (by rw [h])
    · left; left
      have : z.toNat ≠ 0 := fun e => hz (UInt8.toNat_inj.mp (by simpa using e))
      show 0 < z.toNat
      omega

end Verif
