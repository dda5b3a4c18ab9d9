import Verif.Props.Arguments
import Verif.Spec.ParseTime
import Verif.Lemmas.Calendar

/-! # Numbers and units in time arguments -/

namespace Verif.Props
open Verif Verif.Spec

/-- The number `strtoll` gives for a value. -/
def clampLL (v : Int) : Int := if v < -(2 ^ 63) then -(2 ^ 63) else if v ≥ 2 ^ 63 then 2 ^ 63 - 1 else v

theorem takeWhile_all {p : UInt8 → Bool} {ds rest : Bytes} (h : ∀ c ∈ ds, p c = true)
    (hr : ∀ c t, rest = c :: t → p c = false) : (ds ++ rest).takeWhile p = ds := by
  induction ds with
  | nil =>
    cases rest with
    | nil => rfl
    | cons c t => simp [hr c t rfl]
  | cons w ds ih =>
    simp only [List.cons_append, List.takeWhile_cons, h w (by simp), if_true]
    rw [ih fun c hc => h c (by simp [hc])]

/-- A number followed by something else. -/
theorem strtoll_eq {ws sign ds rest : Bytes} (hw : ∀ c ∈ ws, Blank c) (hs : sign = [] ∨ sign = [43] ∨ sign = [45])
    (hn : ds ≠ []) (hd : ∀ c ∈ ds, IsDigit c) (hr : ∀ c t, rest = c :: t → ¬ IsDigit c) :
    strtoll (ws ++ sign ++ ds ++ rest) =
      (clampLL (if sign = [45] then -(numval ds : Int) else numval ds), rest) := by
  have hd' : ∀ c ∈ ds, (48 ≤ c && c ≤ 57) = true := fun c hc => (isDigit_iff c).2 (hd c hc)
  have hr' : ∀ c t, rest = c :: t → (48 ≤ c && c ≤ 57) = false := fun c t e => by
    have := hr c t e
    rw [← isDigit_iff] at this
    simpa using this
  have hfirst : ∀ c t, sign ++ (ds ++ rest) = c :: t → isSpace c = false := by
    rcases hs with rfl | rfl | rfl
    · intro c t e
      cases ds with
      | nil => exact absurd rfl hn
      | cons d ds =>
        simp only [List.nil_append, List.cons_append, List.cons.injEq] at e
        rw [← e.1]
        exact (digit_plain (hd d (by simp))).2.2
    · intro c t e
      cases e; decide
    · intro c t e
      cases e; decide
  have key : ∀ neg : Bool, (if (ds ++ rest).takeWhile (fun c => 48 ≤ c && c ≤ 57) = [] then ((0 : Int), ws ++ sign ++ ds ++ rest)
      else
        (if (if neg then -(((ds ++ rest).takeWhile (fun c => 48 ≤ c && c ≤ 57)).foldl (fun a c => 10 * a + (c.toNat - 48)) 0 : Nat)
            else (((ds ++ rest).takeWhile (fun c => 48 ≤ c && c ≤ 57)).foldl (fun a c => 10 * a + (c.toNat - 48)) 0 : Nat) : Int)
            < -(2 ^ 63) then -(2 ^ 63)
          else if (if neg then -(((ds ++ rest).takeWhile (fun c => 48 ≤ c && c ≤ 57)).foldl (fun a c => 10 * a + (c.toNat - 48)) 0 : Nat)
            else (((ds ++ rest).takeWhile (fun c => 48 ≤ c && c ≤ 57)).foldl (fun a c => 10 * a + (c.toNat - 48)) 0 : Nat) : Int)
            ≥ 2 ^ 63 then 2 ^ 63 - 1
          else (if neg then -(((ds ++ rest).takeWhile (fun c => 48 ≤ c && c ≤ 57)).foldl (fun a c => 10 * a + (c.toNat - 48)) 0 : Nat)
            else (((ds ++ rest).takeWhile (fun c => 48 ≤ c && c ≤ 57)).foldl (fun a c => 10 * a + (c.toNat - 48)) 0 : Nat) : Int),
          (ds ++ rest).dropWhile fun c => 48 ≤ c && c ≤ 57)) =
      (clampLL (if neg then -(numval ds : Int) else numval ds), rest) := by
    intro neg
    rw [takeWhile_all hd' hr', dropWhile_all hd' hr', if_neg hn]
    rfl
  unfold strtoll
  have e1 : (ws ++ sign ++ ds ++ rest).dropWhile isSpace = sign ++ (ds ++ rest) := by
    rw [List.append_assoc, List.append_assoc]
    exact dropWhile_all (fun c hc => (isSpace_iff c).2 (hw c hc)) hfirst
  rw [e1]
  rcases hs with rfl | rfl | rfl
  · cases ds with
    | nil => exact absurd rfl hn
    | cons c ds =>
      have hc := digit_plain (hd c (by simp))
      have k := key false
      simp only [List.nil_append, List.cons_append, if_neg hc.1, if_neg hc.2.1] at k ⊢
      exact k
  · have h43 : ¬ (43 : UInt8) = 45 := by decide
    have k := key false
    simp only [List.nil_append, List.cons_append, if_neg h43, if_true] at k ⊢
    exact k
  · have k := key true
    simp only [List.nil_append, List.cons_append, if_true] at k ⊢
    exact k

/-- Every text begins with a number, or `strtoll` reports none. -/
theorem strtoll_cases (s : Bytes) : strtoll s = (0, s) ∨ ∃ ws sign ds rest, s = ws ++ sign ++ ds ++ rest ∧
    (∀ c ∈ ws, Blank c) ∧ (sign = [] ∨ sign = [43] ∨ sign = [45]) ∧ ds ≠ [] ∧ (∀ c ∈ ds, IsDigit c) ∧
    (∀ c t, rest = c :: t → ¬ IsDigit c) := by
  have hd : s = s.takeWhile isSpace ++ s.dropWhile isSpace := (List.takeWhile_append_dropWhile ..).symm
  have hw : ∀ c ∈ s.takeWhile isSpace, Blank c := fun c hc => (isSpace_iff c).1 (by
    have := List.all_takeWhile (p := isSpace) (l := s)
    exact List.all_eq_true.1 this c hc)
  have key : ∀ t : Bytes, t.takeWhile (fun c => 48 ≤ c && c ≤ 57) = [] ∨ ∃ ds rest, t = ds ++ rest ∧ ds ≠ [] ∧
      (∀ c ∈ ds, IsDigit c) ∧ (∀ c u, rest = c :: u → ¬ IsDigit c) := by
    intro t
    by_cases h : t.takeWhile (fun c => 48 ≤ c && c ≤ 57) = []
    · exact .inl h
    · refine .inr ⟨t.takeWhile (fun c => 48 ≤ c && c ≤ 57), t.dropWhile (fun c => 48 ≤ c && c ≤ 57),
        (List.takeWhile_append_dropWhile ..).symm, h, fun c hc => (isDigit_iff c).1 ?_, ?_⟩
      · exact List.all_eq_true.1 (List.all_takeWhile (p := fun c : UInt8 => 48 ≤ c && c ≤ 57) (l := t)) c hc
      · intro c u e hc
        have := List.head?_dropWhile_not (p := fun c : UInt8 => 48 ≤ c && c ≤ 57) t
        rw [e] at this
        simp only [List.head?_cons] at this
        rw [(isDigit_iff c).2 hc] at this
        cases this
  have fin : ∀ (sign t : Bytes), s.dropWhile isSpace = sign ++ t → (sign = [] ∨ sign = [43] ∨ sign = [45]) →
      t.takeWhile (fun c => 48 ≤ c && c ≤ 57) ≠ [] → ∃ ws sign ds rest, s = ws ++ sign ++ ds ++ rest ∧
      (∀ c ∈ ws, Blank c) ∧ (sign = [] ∨ sign = [43] ∨ sign = [45]) ∧ ds ≠ [] ∧ (∀ c ∈ ds, IsDigit c) ∧
      (∀ c t, rest = c :: t → ¬ IsDigit c) := by
    intro sign t e hs h
    rcases key t with h' | ⟨ds, rest, h1, h2, h3, h4⟩
    · exact absurd h' h
    · exact ⟨_, sign, ds, rest, by rw [e, h1] at hd; rw [List.append_assoc, List.append_assoc]; exact hd, hw, hs, h2, h3, h4⟩
  unfold strtoll
  generalize s.dropWhile isSpace = t at *
  cases t with
  | nil => left; rfl
  | cons c u =>
    by_cases h45 : c = 45
    · simp only [if_pos h45]
      by_cases h : u.takeWhile (fun c => 48 ≤ c && c ≤ 57) = []
      · left; simp only [h, if_true]
      · right; exact fin [45] u (by rw [h45]; rfl) (.inr (.inr rfl)) h
    · by_cases h43 : c = 43
      · simp only [if_neg h45, if_pos h43]
        by_cases h : u.takeWhile (fun c => 48 ≤ c && c ≤ 57) = []
        · left; simp only [h, if_true]
        · right; exact fin [43] u (by rw [h43]; rfl) (.inr (.inl rfl)) h
      · simp only [if_neg h45, if_neg h43]
        by_cases h : (c :: u).takeWhile (fun c => 48 ≤ c && c ≤ 57) = []
        · left; simp only [h, if_true]
        · right; exact fin [] (c :: u) rfl (.inl rfl) h

/-- A number without sign or with a plus sign, and what follows. -/
theorem strtoll_length {x rest : Bytes} {n : Nat} (h : LengthText x n) (hr : ∀ c t, rest = c :: t → ¬ IsDigit c) :
    strtoll (x ++ rest) = (clampLL n, rest) := by
  obtain ⟨ws, sign, ds, rfl, hw, hs, hn, hd, rfl⟩ := h
  rw [strtoll_eq hw (by rcases hs with h | h <;> simp [h]) hn hd hr, if_neg]
  rcases hs with rfl | rfl <;> simp

/-- Positive numbers come from a text without minus sign. -/
theorem strtoll_pos {s : Bytes} (h : 0 < (strtoll s).1) :
    ∃ x n, s = x ++ (strtoll s).2 ∧ LengthText x n ∧ 0 < n ∧ (strtoll s).1 = clampLL n ∧
      (∀ c t, (strtoll s).2 = c :: t → ¬ IsDigit c) := by
  rcases strtoll_cases s with e | ⟨ws, sign, ds, rest, rfl, hw, hs, hn, hd, hr⟩
  · rw [e] at h; exact absurd h (by simp)
  · have e := strtoll_eq hw hs hn hd hr
    rw [e] at h ⊢
    by_cases h45 : sign = [45]
    · rw [if_pos h45] at h
      unfold clampLL at h
      simp only at h
      exfalso; split at h
      · omega
      · split at h <;> omega
    · rw [if_neg h45] at h ⊢
      have hs' : sign = [] ∨ sign = [43] := by
        rcases hs with h | h | h
        · exact .inl h
        · exact .inr h
        · exact absurd h h45
      refine ⟨ws ++ sign ++ ds, numval ds, rfl, ⟨ws, sign, ds, rfl, hw, hs', hn, hd, rfl⟩, ?_, rfl, hr⟩
      unfold clampLL at h
      simp only at h
      split at h
      · omega
      · split at h <;> omega

theorem unit_not_digit {c : UInt8} {k : Nat} (h : (c, k) ∈ units) : ¬ IsDigit c := by
  revert h
  simp only [units, List.mem_cons, Prod.mk.injEq, List.not_mem_nil, or_false]
  rintro (⟨rfl, -⟩ | ⟨rfl, -⟩ | ⟨rfl, -⟩ | ⟨rfl, -⟩ | ⟨rfl, -⟩ | ⟨rfl, -⟩ | ⟨rfl, -⟩ | ⟨rfl, -⟩ | ⟨rfl, -⟩ | ⟨rfl, -⟩) <;>
    decide

theorem longLong_ok {x : Int} (h0 : 0 ≤ x) (h : x < 2 ^ 63) : longLong x = .ok x := by
  unfold longLong; rw [if_neg (by omega)]

theorem longLong_inv {x y : Int} (h : longLong x = .ok y) : y = x ∧ x < 2 ^ 63 := by
  unfold longLong at h
  split at h
  · cases h
  · cases h; exact ⟨rfl, by omega⟩

/-- A unit multiplies by its seconds. -/
theorem scaleUnit_eq {c : UInt8} {k n : Nat} (h : (c, k) ∈ units) (hn : (n : Int) * k < 2 ^ 63) :
    scaleUnit n (some c) = .ok ((n : Int) * k) := by
  revert h
  simp only [units, List.mem_cons, Prod.mk.injEq, List.not_mem_nil, or_false]
  rintro (⟨rfl, rfl⟩ | ⟨rfl, rfl⟩ | ⟨rfl, rfl⟩ | ⟨rfl, rfl⟩ | ⟨rfl, rfl⟩ | ⟨rfl, rfl⟩ | ⟨rfl, rfl⟩ | ⟨rfl, rfl⟩ |
    ⟨rfl, rfl⟩ | ⟨rfl, rfl⟩) <;>
  · simp [scaleUnit, mulLL]
    try (rw [longLong_ok (by omega) (by omega), Out.ok_bind])
    try (rw [longLong_ok (by omega) (by omega), Out.ok_bind])
    try (rw [longLong_ok (by omega) (by omega), Out.ok_bind])
    try (rw [longLong_ok (by omega) (by omega)])
    try (congr 1; omega)

/-- What the `switch` accepts. -/
theorem scaleUnit_inv {ll v : Int} {o : Option UInt8} (h : scaleUnit ll o = .ok v) :
    o = none ∧ v = ll ∨ ∃ c k, o = some c ∧ (c, k) ∈ units ∧ v = ll * (k : Nat) := by
  cases o with
  | none => cases h; exact .inl ⟨rfl, rfl⟩
  | some c =>
    right
    refine ⟨c, ?_⟩
    unfold scaleUnit mulLL at h
    have B : ∀ {a : Int} {f : Int → Out Int}, (longLong a >>= f) = .ok v → longLong a = .ok a ∧ f a = .ok v := by
      intro a f hh
      unfold longLong at hh ⊢
      split at hh
      · cases hh
      · next hc => rw [if_neg hc]; exact ⟨rfl, hh⟩
    simp only at h
    split at h
    · next hc =>
      obtain ⟨-, h⟩ := B h
      obtain ⟨-, h⟩ := B h
      obtain ⟨-, h⟩ := B h
      obtain ⟨h, -⟩ := longLong_inv h
      refine ⟨604800, rfl, ?_, by omega⟩
      rcases hc with rfl | rfl <;> decide
    · split at h
      · next hc =>
        obtain ⟨-, h⟩ := B h
        obtain ⟨-, h⟩ := B h
        obtain ⟨h, -⟩ := longLong_inv h
        refine ⟨86400, rfl, ?_, by omega⟩
        rcases hc with rfl | rfl <;> decide
      · split at h
        · next hc =>
          obtain ⟨-, h⟩ := B h
          obtain ⟨h, -⟩ := longLong_inv h
          refine ⟨3600, rfl, ?_, by omega⟩
          rcases hc with rfl | rfl <;> decide
        · split at h
          · next hc =>
            obtain ⟨h, -⟩ := longLong_inv h
            refine ⟨60, rfl, ?_, by omega⟩
            rcases hc with rfl | rfl <;> decide
          · split at h
            · next hc =>
              cases h
              refine ⟨1, rfl, ?_, by omega⟩
              rcases hc with rfl | rfl <;> decide
            · cases h

theorem clampLL_small {n : Nat} (h : n < 2 ^ 63) : clampLL n = n := by
  unfold clampLL; rw [if_neg (by omega), if_neg (by omega)]

theorem lengthText_ne_nil {x : Bytes} {n : Nat} (h : LengthText x n) : x ≠ [] := by
  obtain ⟨ws, sign, ds, rfl, -, -, hn, -, -⟩ := h
  intro e
  simp only [List.append_eq_nil_iff] at e
  exact hn e.2

/-- The loop adds up the numbers. -/
theorem unitsLoop_span {s : Bytes} {m : Nat} (h : Span s m) :
    ∀ (n total : Nat), s.length < n → total + m < 2 ^ 63 → unitsLoop n s total = .ok ((total : Int) + m) := by
  induction h with
  | nil =>
    intro n total hn _
    cases n with
    | zero => omega
    | succ n => simp [unitsLoop]
  | @last s k hl hk =>
    intro n total hn ht
    cases n with
    | zero => omega
    | succ n =>
      have e := strtoll_length (rest := []) hl (by intro c t h; cases h)
      rw [List.append_nil, clampLL_small (by omega)] at e
      unfold unitsLoop
      rw [if_neg (lengthText_ne_nil hl), e]
      simp only
      rw [if_neg (by omega)]
      simp only [List.head?_nil, scaleUnit, Out.ok_bind]
      rw [longLong_ok (by omega) (by omega), Out.ok_bind]
      cases n with
      | zero =>
        have : 0 < s.length := List.length_pos_iff.2 (lengthText_ne_nil hl)
        omega
      | succ n => simp [unitsLoop]
  | @cons x k c u s m hl hk hu _ ih =>
    intro n total hn ht
    cases n with
    | zero => omega
    | succ n =>
      have hu1 : 1 ≤ u := by
        revert hu
        simp only [units, List.mem_cons, Prod.mk.injEq, List.not_mem_nil, or_false]
        omega
      have hku : k ≤ k * u := Nat.le_mul_of_pos_right k hu1
      have e := strtoll_length (rest := c :: s) hl (by intro d t h; cases h; exact unit_not_digit hu)
      rw [clampLL_small (by omega)] at e
      unfold unitsLoop
      rw [if_neg (by simp), e]
      simp only
      rw [if_neg (by omega)]
      have hm : (k : Int) * (u : Int) = ((k * u : Nat) : Int) := by push_cast; rfl
      simp only [List.head?_cons, List.drop_one, List.tail_cons]
      rw [scaleUnit_eq hu (by rw [hm]; omega), Out.ok_bind, hm, longLong_ok (by omega) (by omega), Out.ok_bind]
      have := ih n (total + k * u) (by simp at hn; omega) (by omega)
      rw [show ((total : Int) + ((k * u : Nat) : Int)) = ((total + k * u : Nat) : Int) by push_cast; rfl, this]
      congr 1
      push_cast
      omega

theorem span_nil {s : Bytes} {m : Nat} (h : Span s m) (hs : s = []) : m = 0 := by
  cases h with
  | nil => rfl
  | last hl _ => exact absurd hs (lengthText_ne_nil hl)
  | cons => simp at hs

/-- A sum below the largest number comes from a text of numbers and units. -/
theorem unitsLoop_inv : ∀ (n : Nat) (s : Bytes) (total : Nat) (v : Int), unitsLoop n s total = .ok v → v < 2 ^ 63 - 1 →
    ∃ m : Nat, Span s m ∧ v = total + m := by
  intro n
  induction n with
  | zero => intro s total v h; cases h
  | succ n ih =>
    intro s total v h hv
    unfold unitsLoop at h
    by_cases hs : s = []
    · rw [if_pos hs] at h
      cases h
      exact ⟨0, by rw [hs]; exact .nil, by simp⟩
    · rw [if_neg hs] at h
      simp only at h
      by_cases h0 : (strtoll s).1 ≤ 0
      · rw [if_pos h0] at h; cases h
      · rw [if_neg h0] at h
        obtain ⟨x, k, hx, hl, hk, hc, hr⟩ := strtoll_pos (s := s) (by omega)
        cases hsc : scaleUnit (strtoll s).1 (strtoll s).2.head? with
        | fail => rw [hsc] at h; cases h
        | fault f => rw [hsc] at h; cases h
        | ok ll =>
          rw [hsc, Out.ok_bind] at h
          cases hll : longLong (total + ll) with
          | fail => rw [hll] at h; cases h
          | fault f => rw [hll] at h; cases h
          | ok t =>
            rw [hll, Out.ok_bind] at h
            obtain ⟨rfl, hlt⟩ := longLong_inv hll
            have hpos : 0 < ll := by
              rcases scaleUnit_inv hsc with ⟨-, h⟩ | ⟨c, u, -, hu, h⟩
              · omega
              · have hu1 : 1 ≤ u := by
                  revert hu
                  simp only [units, List.mem_cons, Prod.mk.injEq, List.not_mem_nil, or_false]
                  omega
                rw [h]
                exact Int.mul_pos (by omega) (by omega)
            have hge : (strtoll s).1 ≤ ll := by
              rcases scaleUnit_inv hsc with ⟨-, h⟩ | ⟨c, u, -, hu, h⟩
              · omega
              · have hu1 : 1 ≤ u := by
                  revert hu
                  simp only [units, List.mem_cons, Prod.mk.injEq, List.not_mem_nil, or_false]
                  omega
                rw [h]
                have := Int.mul_le_mul_of_nonneg_left (show (1 : Int) ≤ u by omega) (show 0 ≤ (strtoll s).1 by omega)
                omega
            obtain ⟨m, hm, hv'⟩ := ih _ (total + ll.toNat) v (by
              rw [show ((total + ll.toNat : Nat) : Int) = (total : Int) + ll by omega]; exact h) hv
            have hkk : clampLL k = k := by
              unfold clampLL at hc ⊢
              rw [if_neg (by omega)] at hc ⊢
              split at hc
              · omega
              · next h => rw [if_neg h]
            rw [hkk] at hc
            rcases scaleUnit_inv hsc with ⟨hn, h⟩ | ⟨c, u, hn, hu, h⟩
            · have e : (strtoll s).2 = [] := List.head?_eq_none_iff.1 hn
              rw [e] at hm hx
              simp only [List.drop_nil] at hm
              rw [List.append_nil] at hx
              refine ⟨k + m, ?_, by omega⟩
              have hm0 : m = 0 := span_nil hm rfl
              rw [hx, hm0]
              exact .last hl hk
            · obtain ⟨t, e⟩ : ∃ t, (strtoll s).2 = c :: t := by
                cases e : (strtoll s).2 with
                | nil => rw [e] at hn; cases hn
                | cons d t => rw [e] at hn; cases hn; exact ⟨t, rfl⟩
              rw [e] at hm hx
              simp only [List.drop_one, List.tail_cons] at hm
              refine ⟨k * u + m, by rw [hx]; exact .cons hl hk hu hm, ?_⟩
              rw [hc] at h
              have hm' : (k : Int) * (u : Int) = ((k * u : Nat) : Int) := by push_cast; rfl
              rw [hm'] at h
              omega

end Verif.Props
