import Verif.Lemmas.Format
import Verif.Model.Time
import Verif.Spec.Calendar

/-! # Lemmas: time stamps -/

namespace Verif
open Spec

/-! ## Printing -/

theorem digitsK_pad (j n : Nat) : digitsK (j + countDigits n) n = List.replicate j 48 ++ digitsK (countDigits n) n := by
  induction n using Nat.strongRecOn with
  | _ n ih =>
    by_cases h : n / 10 = 0
    · have hc : countDigits n = 1 := by unfold countDigits; rw [if_pos h]
      have hz : ∀ j, digitsK j 0 = List.replicate j 48 := by
        intro j
        induction j with
        | zero => rfl
        | succ j ihj => rw [digitsK, Nat.zero_div, ihj, List.replicate_succ']; rfl
      rw [hc, digitsK, h, hz]
      rfl
    · have hc : countDigits n = countDigits (n / 10) + 1 := by
        conv => lhs; unfold countDigits
        rw [if_neg h]
      rw [hc, ← Nat.add_assoc, digitsK, ih (n / 10) (by omega), digitsK, List.append_assoc]

theorem digitsK_fill (n num : Nat) :
    (List.replicate n 48).take (n - min (countDigits num) n) ++ digitsK (min (countDigits num) n) num = digitsK n num := by
  by_cases h : countDigits num ≤ n
  · rw [Nat.min_eq_left h, List.take_replicate, Nat.min_eq_left (by omega), ← digitsK_pad]
    congr 1; omega
  · rw [Nat.min_eq_right (by omega)]; simp

theorem rfcField_eq (num : Int) (pre post : Bytes) (x sep : UInt8) (n : Nat) (hn : 0 < n) :
    rfcField num pre.length (n + 1) sep (pre ++ (List.replicate n 48 ++ x :: post)) =
      .ok (pre ++ (digitsK n (toU64 num) ++ sep :: post)) := by
  unfold rfcField
  rw [myUint64ToStr_eq _ hn (by simp)]
  simp only [Out.ok_bind, store]
  have e := digitsK_fill n (toU64 num)
  have e2 : ∀ rest : Bytes, pre ++ ((List.replicate n (48 : UInt8)).take (n - min (countDigits (toU64 num)) n) ++
      (digitsK (min (countDigits (toU64 num)) n) (toU64 num) ++ rest)) = (pre ++ digitsK n (toU64 num)) ++ rest := by
    intro rest; rw [← e]; simp
  rw [e2, if_pos (by simp [digitsK_length])]
  rw [set_split _ (by simp [digitsK_length]), List.append_assoc]

/-- What is printed for a `struct tm`. -/
def rfcString (r : Tm) : Bytes :=
  digitsK 4 (toU64 (1900 + r.year)) ++ 45 :: (digitsK 2 (toU64 (1 + r.mon)) ++ 45 :: (digitsK 2 (toU64 r.mday) ++
    84 :: (digitsK 2 (toU64 r.hour) ++ 58 :: (digitsK 2 (toU64 r.min) ++ 58 :: (digitsK 2 (toU64 r.sec) ++ [90])))))

theorem fmtRfc3339_eq (r : Tm) : fmtRfc3339 r rfcTemplate = .ok (rfcString r ++ [0]) := by
  unfold fmtRfc3339 rfcString
  have h1 := rfcField_eq (1900 + r.year) [] [48, 48, 45, 48, 48, 84, 48, 48, 58, 48, 48, 58, 48, 48, 90, 0] 45 45 4 (by decide)
  replace h1 : rfcField (1900 + r.year) 0 5 45 rfcTemplate = _ := h1
  rw [h1]
  simp only [Out.ok_bind, List.nil_append]
  have step : ∀ (num : Int) (p : Bytes) (off : Nat) (x sep : UInt8) (post : Bytes), p.length = off →
      rfcField num off 3 sep (p ++ 48 :: 48 :: x :: post) = .ok (p ++ (digitsK 2 (toU64 num) ++ sep :: post)) := by
    intro num p off x sep post h
    subst h
    exact rfcField_eq num p post x sep 2 (by decide)
  have a1 : ∀ (p q : Bytes) (x : UInt8), p ++ x :: q = (p ++ [x]) ++ q := by intros; simp
  rw [a1 (digitsK 4 _), step _ _ _ _ _ _ (by simp [digitsK_length])]
  simp only [Out.ok_bind]
  rw [← List.append_assoc, a1 (_ ++ digitsK 2 _), step _ _ _ _ _ _ (by simp [digitsK_length])]
  simp only [Out.ok_bind]
  rw [← List.append_assoc, a1 (_ ++ digitsK 2 _), step _ _ _ _ _ _ (by simp [digitsK_length])]
  simp only [Out.ok_bind]
  rw [← List.append_assoc, a1 (_ ++ digitsK 2 _), step _ _ _ _ _ _ (by simp [digitsK_length])]
  simp only [Out.ok_bind]
  rw [← List.append_assoc, a1 (_ ++ digitsK 2 _), step _ _ _ _ _ _ (by simp [digitsK_length])]
  simp

/-- What is printed for a date and time. -/
def stampString (t : Stamp) : Bytes :=
  digitsK 4 t.year ++ 45 :: (digitsK 2 t.month ++ 45 :: (digitsK 2 t.day ++
    84 :: (digitsK 2 t.hour ++ 58 :: (digitsK 2 t.minute ++ 58 :: (digitsK 2 t.second ++ [90])))))

theorem monthLen_le (y m : Nat) : monthLen y m ≤ 31 := by
  unfold monthLen; split <;> (try split) <;> omega

theorem rfcString_tm {t : Stamp} (h : t.Valid) (hy : t.year ≤ 9999) : rfcString t.tm = stampString t := by
  obtain ⟨h1, h2, h3, h4, h5, h6, h7, h8⟩ := h
  have := monthLen_le t.year t.month
  have e : ∀ (x : Int) (n : Nat), x = n → n < 100000 → toU64 x = n := by
    intro x n hx hn; unfold toU64; omega
  unfold rfcString stampString Spec.Stamp.tm
  simp only
  rw [e _ t.year (by omega) (by omega), e _ t.month (by omega) (by omega), e _ t.day rfl (by omega),
    e _ t.hour rfl (by omega), e _ t.minute rfl (by omega), e _ t.second rfl (by omega)]

/-! ## Counting days -/

theorem daysOfYears_mono {a b : Nat} (h : a ≤ b) : daysOfYears a ≤ daysOfYears b := by
  induction h with
  | refl => exact Nat.le_refl _
  | step _ ih => exact Nat.le_trans ih (Nat.le_add_right _ _)

theorem daysOfMonths_mono {y a b : Nat} (h : a ≤ b) : daysOfMonths y a ≤ daysOfMonths y b := by
  induction h with
  | refl => exact Nat.le_refl _
  | step _ ih => exact Nat.le_trans ih (Nat.le_add_right _ _)

theorem daysOfMonths_year (y : Nat) : daysOfMonths y 12 = yearLen y := by
  unfold yearLen
  cases h : leap y <;> simp [daysOfMonths, monthLen, h]

/-- The number of the day, from 1970-01-01. -/
def dayNumber (t : Stamp) : Nat :=
  daysOfYears (t.year - 1970) + daysOfMonths t.year (t.month - 1) + (t.day - 1)

theorem seconds_eq (t : Stamp) :
    t.seconds = ((dayNumber t * 24 + t.hour) * 60 + t.minute) * 60 + t.second := rfl

theorem day_in_month {t : Stamp} (h : t.Valid) : daysOfMonths t.year (t.month - 1) + (t.day - 1) < daysOfMonths t.year t.month := by
  obtain ⟨h1, h2, h3, h4, h5, -⟩ := h
  obtain ⟨m, hm⟩ : ∃ m, t.month = m + 1 := ⟨t.month - 1, by omega⟩
  rw [hm] at h5 ⊢
  simp only [Nat.add_sub_cancel, daysOfMonths]
  omega

theorem day_in_year {t : Stamp} (h : t.Valid) :
    daysOfYears (t.year - 1970) ≤ dayNumber t ∧ dayNumber t < daysOfYears (t.year - 1970 + 1) := by
  have h1 := day_in_month h
  have h2 : daysOfMonths t.year t.month ≤ daysOfMonths t.year 12 := daysOfMonths_mono h.2.2.1
  rw [daysOfMonths_year] at h2
  have h3 := h.1
  unfold dayNumber
  simp only [daysOfYears]
  have : 1970 + (t.year - 1970) = t.year := by omega
  rw [this]
  omega

theorem daysOfYears_9999 : daysOfYears 8030 = 2932897 := by decide +kernel

theorem year_le {t : Stamp} (h : t.Valid) (hs : t.seconds ≤ endOf9999) : t.year ≤ 9999 := by
  apply Decidable.byContradiction
  intro hy
  have h1 := (day_in_year h).1
  have h2 := daysOfYears_mono (show 8030 ≤ t.year - 1970 by omega)
  rw [daysOfYears_9999] at h2
  rw [seconds_eq] at hs
  unfold endOf9999 at hs
  omega

/-- Dates in order. -/
def Spec.Stamp.before (a b : Stamp) : Prop :=
  a.year < b.year ∨ a.year = b.year ∧ (a.month < b.month ∨ a.month = b.month ∧ (a.day < b.day ∨ a.day = b.day ∧
    (a.hour < b.hour ∨ a.hour = b.hour ∧ (a.minute < b.minute ∨ a.minute = b.minute ∧ a.second < b.second))))

theorem seconds_lt {a b : Stamp} (ha : a.Valid) (hb : b.Valid) (h : a.before b) : a.seconds < b.seconds := by
  rw [seconds_eq, seconds_eq]
  have hday : a.year < b.year ∨ a.year = b.year ∧ (a.month < b.month ∨ a.month = b.month ∧ a.day < b.day) →
      dayNumber a < dayNumber b := by
    rintro (h | ⟨hy, h | ⟨hm, h⟩⟩)
    · have h1 := (day_in_year ha).2
      have h2 := (day_in_year hb).1
      have h3 := daysOfYears_mono (show a.year - 1970 + 1 ≤ b.year - 1970 by have := ha.1; omega)
      omega
    · have h1 := day_in_month ha
      have h2 : daysOfMonths a.year a.month ≤ daysOfMonths a.year (b.month - 1) := daysOfMonths_mono (by omega)
      unfold dayNumber
      rw [← hy]
      omega
    · unfold dayNumber
      rw [hy, hm]
      have := ha.2.2.2.1
      omega
  have := ha.2.2.2.2.2
  rcases h with h | ⟨hy, h | ⟨hm, h | ⟨hd, h⟩⟩⟩
  · have := hday (.inl h); omega
  · have := hday (.inr ⟨hy, .inl h⟩); omega
  · have := hday (.inr ⟨hy, .inr ⟨hm, h⟩⟩); omega
  · have : dayNumber a = dayNumber b := by unfold dayNumber; rw [hy, hm, hd]
    omega

theorem before_of_lt {a b : Stamp} (ha : a.Valid) (hb : b.Valid) (h : a.seconds < b.seconds) : a.before b := by
  refine Classical.byContradiction fun hn => ?_
  by_cases he : a = b
  · subst he; omega
  · have : b.before a := by
      unfold Spec.Stamp.before at hn ⊢
      have hne : ¬ (a.year = b.year ∧ a.month = b.month ∧ a.day = b.day ∧ a.hour = b.hour ∧ a.minute = b.minute ∧
          a.second = b.second) := by
        rintro ⟨h1, h2, h3, h4, h5, h6⟩
        apply he
        cases a; cases b; simp_all
      omega
    have := seconds_lt hb ha this
    omega

/-! ## Textual order -/

theorem lt_append {a b : Bytes} (h : a.length = b.length) (x y : Bytes) :
    a ++ x < b ++ y ↔ a < b ∨ a = b ∧ x < y := by
  induction a generalizing b with
  | nil =>
    have : b = [] := List.length_eq_zero_iff.1 (by simpa using h.symm)
    subst this
    simp
  | cons c a ih =>
    cases b with
    | nil => simp at h
    | cons d b =>
      simp only [List.cons_append, List.cons_lt_cons_iff, ih (by simpa using h), List.cons.injEq]
      constructor
      · rintro (h | ⟨h1, h | ⟨h2, h⟩⟩)
        · exact .inl (.inl h)
        · exact .inl (.inr ⟨h1, h⟩)
        · exact .inr ⟨⟨h1, h2⟩, h⟩
      · rintro ((h | ⟨h1, h⟩) | ⟨⟨h1, h2⟩, h⟩)
        · exact .inl h
        · exact .inr ⟨h1, .inl h⟩
        · exact .inr ⟨h1, .inr ⟨h2, h⟩⟩

theorem digitsK_lt {k a b : Nat} (hb : b < 10 ^ k) (h : a < b) : digitsK k a < digitsK k b := by
  induction k generalizing a b with
  | zero => simp at hb; omega
  | succ k ih =>
    rw [digitsK, digitsK, lt_append (by simp [digitsK_length])]
    by_cases hq : a / 10 < b / 10
    · exact .inl (ih (by rw [Nat.pow_succ] at hb; omega) hq)
    · refine .inr ⟨by rw [show a / 10 = b / 10 by omega], ?_⟩
      rw [List.cons_lt_cons_iff]
      refine .inl ?_
      rw [UInt8.lt_iff_toNat_lt, digitChar_toNat, digitChar_toNat]
      omega

theorem stampString_lt {a b : Stamp} (hb : b.Valid) (hy : b.year ≤ 9999) (h : a.before b) :
    stampString a < stampString b := by
  obtain ⟨-, -, h3, -, h5, h6, h7, h8⟩ := hb
  have := monthLen_le b.year b.month
  have cons : ∀ (c : UInt8) (x y : Bytes), x < y → c :: x < c :: y := by
    intro c x y h; rw [List.cons_lt_cons_iff]; exact .inr ⟨rfl, h⟩
  have L : ∀ k x y, (digitsK k x).length = (digitsK k y).length := by intros; simp [digitsK_length]
  unfold stampString
  rw [lt_append (L ..)]
  rcases h with h | ⟨e, h⟩
  · exact .inl (digitsK_lt (by omega) h)
  refine .inr ⟨by rw [e], cons _ _ _ ?_⟩
  rw [lt_append (L ..)]
  rcases h with h | ⟨e, h⟩
  · exact .inl (digitsK_lt (by omega) h)
  refine .inr ⟨by rw [e], cons _ _ _ ?_⟩
  rw [lt_append (L ..)]
  rcases h with h | ⟨e, h⟩
  · exact .inl (digitsK_lt (by omega) h)
  refine .inr ⟨by rw [e], cons _ _ _ ?_⟩
  rw [lt_append (L ..)]
  rcases h with h | ⟨e, h⟩
  · exact .inl (digitsK_lt (by omega) h)
  refine .inr ⟨by rw [e], cons _ _ _ ?_⟩
  rw [lt_append (L ..)]
  rcases h with h | ⟨e, h⟩
  · exact .inl (digitsK_lt (by omega) h)
  refine .inr ⟨by rw [e], cons _ _ _ ?_⟩
  rw [lt_append (L ..)]
  exact .inl (digitsK_lt (by omega) h)

/-! ## Reading back -/

theorem readStamp_string {t : Stamp} (h : t.Valid) (hy : t.year ≤ 9999) : readStamp (stampString t) = some t.seconds := by
  obtain ⟨y, mo, d, hh, mi, s⟩ := t
  obtain ⟨-, -, h3, -, h5, h6, h7, h8⟩ := id h
  have := monthLen_le y mo
  simp only at h3 h5 h6 h7 h8 hy
  have D : ∀ k n, n < 10 ^ k → numval (digitsK k n) = n := fun k n hn => by rw [digitsK_value, Nat.mod_eq_of_lt hn]
  have e4 := D 4 y (by omega)
  have em := D 2 mo (by omega)
  have ed := D 2 d (by omega)
  have eh := D 2 hh (by omega)
  have en := D 2 mi (by omega)
  have es := D 2 s (by omega)
  have I : ∀ n, IsDigit (digitChar n) := by intro n; unfold IsDigit; rw [digitChar_toNat]; omega
  simp only [digitsK, List.nil_append, List.cons_append] at e4 em ed eh en es
  simp only [stampString, digitsK, List.nil_append, List.cons_append, readStamp]
  rw [e4, em, ed, eh, en, es, if_pos]
  refine ⟨?_, h⟩
  intro c hc
  simp only [List.mem_cons, List.not_mem_nil, or_false] at hc
  rcases hc with rfl | rfl | rfl | rfl | rfl | rfl | rfl | rfl | rfl | rfl | rfl | rfl | rfl | rfl <;> exact I _

/-! ## Every second has a date -/

theorem locate {f : Nat → Nat} {x : Nat} : ∀ n, f 0 ≤ x → x < f n → ∃ k < n, f k ≤ x ∧ x < f (k + 1) := by
  intro n
  induction n with
  | zero => intro h1 h2; omega
  | succ n ih =>
    intro h1 h2
    by_cases h : x < f n
    · obtain ⟨k, hk, h⟩ := ih h1 h; exact ⟨k, by omega, h⟩
    · exact ⟨n, by omega, by omega, h2⟩

theorem daysOfYears_ge (n : Nat) : n ≤ daysOfYears n := by
  induction n with
  | zero => exact Nat.le_refl _
  | succ n ih => simp only [daysOfYears, yearLen]; split <;> omega

theorem stamp_exists (v : Nat) : ∃ t : Stamp, t.Valid ∧ t.seconds = v := by
  obtain ⟨n, -, h1, h2⟩ := locate (f := daysOfYears) (x := v / 86400) (v / 86400 + 1) (Nat.zero_le _)
    (Nat.lt_of_lt_of_le (Nat.lt_succ_self _) (daysOfYears_ge _))
  simp only [daysOfYears] at h2
  obtain ⟨m, hm, h3, h4⟩ := locate (f := daysOfMonths (1970 + n)) (x := v / 86400 - daysOfYears n) 12 (Nat.zero_le _)
    (by rw [daysOfMonths_year]; omega)
  simp only [daysOfMonths] at h4
  refine ⟨⟨1970 + n, m + 1, v / 86400 - daysOfYears n - daysOfMonths (1970 + n) m + 1, v / 3600 % 24, v / 60 % 60, v % 60⟩,
    ⟨by simp, by simp, by simp; omega, by simp, by simp only; omega, by simp only; omega, by simp only; omega,
      by simp only; omega⟩, ?_⟩
  rw [seconds_eq]
  simp only [dayNumber, Nat.add_sub_cancel, Nat.add_sub_cancel_left]
  omega

end Verif
