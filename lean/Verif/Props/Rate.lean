import Verif.Lemmas.Rate

/-!
# C78: the limiter
-/

namespace Verif.Props
open Verif.Spec Verif.Rate

theorem sleep_clock {f : Finds} (h : ClockTime f.before ∧ ClockTime f.after) (r : Limiter) : ClockTime (Rate.sleep r f).2.time := by
  have key : ∀ (c : Prop) [Decidable c], ClockTime (if c then f.after else f.before) := by
    intro c _
    split
    · exact h.2
    · exact h.1
  exact key _

theorem sleeps_clock : ∀ {fs : List Finds}, (∀ f ∈ fs, ClockTime f.before ∧ ClockTime f.after) → ∀ r, ∀ d ∈ sleeps r fs, ClockTime d.time
  | [], _, _, d, hd => by simp [sleeps] at hd
  | f :: fs, h, r, d, hd => by
    rcases List.mem_cons.1 (show d ∈ (Rate.sleep r f).2 :: sleeps (Rate.sleep r f).1 fs from hd) with rfl | hd
    · exact sleep_clock (h f (by simp)) r
    · exact sleeps_clock (fun x hx => h x (by simp [hx])) _ d hd

/-- A relation that holds for a call and the tick it sets, and whatever time is not before this tick, holds for each call and the
next. -/
theorem chained_of {R : Did → Did → Prop}
    (step : ∀ a b : Did, ClockTime a.time → ClockTime b.time → ClockTime a.period → 0 < inNanos a.period →
      inNanos (calcNextTick a.time a.period) ≤ inNanos b.time → (∀ t, b.till = some t → t = calcNextTick a.time a.period) → R a b) :
    ∀ (fs : List Finds) (r : Limiter) (a : Did), Ticked r a → ClockTime a.time → SleptWell fs (sleeps r fs) →
      (∀ d ∈ a :: sleeps r fs, ClockTime d.period ∧ 0 < inNanos d.period) → Chained R (a :: sleeps r fs) := by
  intro fs
  induction fs with
  | nil => intro r a _ _ _ _; trivial
  | cons f fs ih =>
    intro r a hr ha hw hp
    have hb := sleep_clock (hw.1 f (by simp)) r
    refine ⟨(?_ : R a (Rate.sleep r f).2), ih _ _ (sleep_set r f) hb ⟨fun x hx => hw.1 x (by simp [hx]), fun d hd => hw.2 d (List.mem_cons_of_mem _ hd)⟩
      fun d hd => hp d (List.mem_cons_of_mem _ hd)⟩
    have pa := hp a (by simp)
    rcases sleep_at hr f with ⟨h1, h2⟩ | ⟨h1, h2, h3⟩
    · refine step a (Rate.sleep r f).2 ha hb pa.1 pa.2 (hw.2 (Rate.sleep r f).2 List.mem_cons_self _ h1) ?_
      intro t ht
      rw [h1] at ht
      injection ht with ht
      exact ht.symm
    · refine step a (Rate.sleep r f).2 ha hb pa.1 pa.2 (by rw [h2]; exact h3) ?_
      intro t ht
      rw [h1] at ht
      exact absurd ht (by simp)

/-- C78: whenever the calls come, each returns later than the one before, and sleeps, if it does, until a time after that one returned and
at most a period later.  Missing: sleeps that end early, for which it is false. -/
theorem C78_pace_partial (freq : Nat) (period : Timespec) (fs : List Finds) (hw : SleptWell fs (sleeps (Rate.init freq period) fs))
    (hp : ∀ d ∈ sleeps (Rate.init freq period) fs, ClockTime d.period ∧ 0 < inNanos d.period) :
    Chained Paced (sleeps (Rate.init freq period) fs) := by
  cases fs with
  | nil => trivial
  | cons f fs =>
    refine chained_of (R := Paced) ?_ fs _ _ (sleep_set _ f) (sleep_clock (hw.1 f (by simp)) _)
      ⟨fun x hx => hw.1 x (by simp [hx]), fun d hd => hw.2 d (List.mem_cons_of_mem _ hd)⟩ hp
    intro a b ha _ hpa h0 hle ht
    obtain ⟨_, h1, h2⟩ := tick_spec ha hpa h0
    refine ⟨by omega, ?_⟩
    intro t e
    rw [ht t e]
    exact ⟨h1, h2⟩

/-- The call is in a later second, or in a later part of the same. -/
def Beyond (p : Int) (a b : Did) : Prop :=
  a.time.sec < b.time.sec ∨ (a.time.sec = b.time.sec ∧ a.time.nsec / p < b.time.nsec / p)

theorem pairwise_of_chained {α : Type} {R : α → α → Prop} (tr : ∀ a b c, R a b → R b c → R a c) : ∀ {l : List α}, Chained R l → l.Pairwise R
  | [], _ => .nil
  | [a], _ => by simp
  | a :: b :: l, h => by
    have ih := pairwise_of_chained (l := b :: l) tr h.2
    refine List.pairwise_cons.2 ⟨?_, ih⟩
    intro c hc
    rcases List.mem_cons.1 hc with rfl | hc
    · exact h.1
    · exact tr _ _ _ h.1 ((List.pairwise_cons.1 ih).1 c hc)

theorem length_of_ascending {α : Type} (g : α → Int) : ∀ (l : List α) (a : Int) (n : Nat), (l.Pairwise fun x y => g x < g y) →
    (∀ x ∈ l, a ≤ g x ∧ g x < a + n) → l.length ≤ n := by
  intro l
  induction l with
  | nil => intro a n _ _; exact Nat.zero_le _
  | cons x l ih =>
    intro a n hp hb
    rw [List.pairwise_cons] at hp
    have hx := hb x (by simp)
    cases n with
    | zero => omega
    | succ n =>
      have := ih (a + 1) n hp.2 (by
        intro y hy
        have h1 := hp.1 y hy
        have h2 := hb y (by simp [hy])
        omega)
      simp only [List.length_cons]
      omega

/-- C78: with a period of `p` nanoseconds of which `n` make up a second at least, at most `n` calls return within a second of the clock,
whenever they come.  Missing: sleeps that end early, and periods that are not a whole number of nanoseconds; for both the number of
calls in a second is not bounded by the rate. -/
theorem C78_rate_partial (freq : Nat) (period : Timespec) (fs : List Finds) (hw : SleptWell fs (sleeps (Rate.init freq period) fs))
    {p : Int} (h0 : 0 < p) (h1 : p < 1000000000) (hp : ∀ d ∈ sleeps (Rate.init freq period) fs, d.period = ⟨0, p⟩) {n : Nat}
    (hn : 1000000000 ≤ p * n) (s : Int) :
    ((sleeps (Rate.init freq period) fs).filter fun d => decide (d.time.sec = s)).length ≤ n := by
  have hchain : Chained (fun a b => a.period = ⟨0, p⟩ → Beyond p a b) (sleeps (Rate.init freq period) fs) := by
    cases fs with
    | nil => trivial
    | cons f fs =>
      refine chained_of (R := fun a b => a.period = ⟨0, p⟩ → Beyond p a b) ?_ fs _ _ (sleep_set _ f)
        (sleep_clock (hw.1 f (by simp)) _) ⟨fun x hx => hw.1 x (by simp [hx]), fun d hd => hw.2 d (List.mem_cons_of_mem _ hd)⟩ ?_
      · intro a b ha hb _ _ hle _ hap
        obtain ⟨a1, a2, a3⟩ := ha
        obtain ⟨b1, b2, b3⟩ := hb
        rw [hap] at hle
        unfold calcNextTick at hle
        simp only [show ¬ ((0 : Int) > 0) by decide, if_false, show p > 0 from h0, if_true] at hle
        have hb2 := step_bounds a2 h0
        rw [carry_one (by simp only; omega) (by simp only; omega) (by simp only; omega)] at hle
        rw [next_multiple a2 h0] at hle hb2
        unfold inNanos at hle
        unfold Beyond
        by_cases hlt : a.time.sec < b.time.sec
        · exact .inl hlt
        · refine .inr ?_
          simp only at hle
          split at hle
          · simp only at hle
            omega
          · simp only at hle
            refine ⟨by omega, ?_⟩
            have : (a.time.nsec / p + 1) * p ≤ b.time.nsec := by omega
            have := (Int.le_ediv_iff_mul_le h0).2 this
            omega
      · intro d hd
        have e := hp d hd
        rw [e]
        refine ⟨⟨Int.le_refl 0, Int.le_of_lt h0, h1⟩, ?_⟩
        simp only [inNanos]
        omega
  have hclock := sleeps_clock hw.1 (Rate.init freq period)
  generalize sleeps (Rate.init freq period) fs = ds at hp hchain hclock
  have hpair : ds.Pairwise (Beyond p) := by
    have : Chained (Beyond p) ds := by
      clear hclock
      induction ds with
      | nil => trivial
      | cons a ds ih =>
        cases ds with
        | nil => trivial
        | cons b ds => exact ⟨hchain.1 (hp a (by simp)), ih (fun d hd => hp d (by simp [hd])) hchain.2⟩
    refine pairwise_of_chained ?_ this
    rintro a b c (h | ⟨h, h'⟩) (g | ⟨g, g'⟩)
    · exact .inl (by omega)
    · exact .inl (by omega)
    · exact .inl (by omega)
    · exact .inr ⟨by omega, by omega⟩
  refine length_of_ascending (fun d => d.time.nsec / p) _ 0 n ?_ ?_
  · have := hpair.filter (fun d => decide (d.time.sec = s))
    refine List.Pairwise.imp_of_mem ?_ this
    intro a b ha hb hab
    have e1 : a.time.sec = s := by simpa using (List.mem_filter.1 ha).2
    have e2 : b.time.sec = s := by simpa using (List.mem_filter.1 hb).2
    rcases hab with h | h
    · omega
    · exact h.2
  · intro d hd
    obtain ⟨d1, d2, d3⟩ := hclock d (List.mem_filter.1 hd).1
    refine ⟨Int.ediv_nonneg d2 (Int.le_of_lt h0), ?_⟩
    rw [Int.ediv_lt_iff_lt_mul h0, Int.zero_add, Int.mul_comm]
    omega

/-- A call from which on the rate is adjusted: a rate is adjusted at every `freq`-th call but the first of these, and never if `freq` is
zero. -/
def Adjusts (freq k : Nat) : Prop := 0 < freq ∧ freq ∣ k ∧ freq < k

instance (freq k : Nat) : Decidable (Adjusts freq k) := by unfold Adjusts; infer_instance

theorem sleep_effect (r : Limiter) (f : Finds) :
    (Rate.sleep r f).1.freq = r.freq ∧ (Rate.sleep r f).1.count = r.count + 1 ∧ (Rate.sleep r f).1.period = (Rate.sleep r f).2.period ∧
      (Rate.sleep r f).2.period = (if Adjusts r.freq (r.count + 1) then f.adjusted else r.period) ∧
      (∀ t, (Rate.sleep r f).2.till = some t → inNanos f.before < inNanos t ∧ (Rate.sleep r f).2.time = f.after) ∧
      ((Rate.sleep r f).2.till = none → (Rate.sleep r f).2.time = f.before) := by
  have key : ∀ (t now : Timespec) (r' : Limiter), (∀ t, (if tsNanos (timespecSub now r'.nextTick) > 0 then some r'.nextTick else none) = some t →
      inNanos now < inNanos t ∧ (if tsNanos (timespecSub now r'.nextTick) > 0 then f.after else now) = f.after) ∧
      ((if tsNanos (timespecSub now r'.nextTick) > 0 then some r'.nextTick else none) = none →
        (if tsNanos (timespecSub now r'.nextTick) > 0 then f.after else now) = now) := by
    intro t now r'
    rw [nanos_sub]
    split
    · refine ⟨fun t h => ?_, by simp⟩
      injection h with h
      subst h
      exact ⟨by omega, rfl⟩
    · exact ⟨by simp, fun _ => rfl⟩
  have hk := key f.before f.before
  have adj : ∀ c : Nat, (r.freq ≠ 0 ∧ c % r.freq = 0 ∧ c > r.freq) ↔ Adjusts r.freq c := by
    intro c
    unfold Adjusts
    rw [Nat.dvd_iff_mod_eq_zero]
    omega
  have e1 : ∀ (c : Prop) [Decidable c] (x y : Limiter), (if c then x else y).freq = if c then x.freq else y.freq := by
    intro c _ x y; split <;> rfl
  refine ⟨?_, ?_, rfl, ?_, (hk _).1, (hk _).2⟩
  · unfold Rate.sleep
    simp only
    split <;> split <;> rfl
  · unfold Rate.sleep
    simp only
    split <;> split <;> rfl
  · unfold Rate.sleep
    simp only
    have := adj (r.count + 1)
    by_cases h1 : r.count + 1 = 1
    · simp only [if_pos h1]
      by_cases h2 : Adjusts r.freq (r.count + 1)
      · rw [if_pos (this.2 h2), if_pos h2]
      · rw [if_neg (fun h => h2 (this.1 h)), if_neg h2]
    · simp only [if_neg h1]
      by_cases h2 : Adjusts r.freq (r.count + 1)
      · rw [if_pos (this.2 h2), if_pos h2]
      · rw [if_neg (fun h => h2 (this.1 h)), if_neg h2]

theorem sleeps_effect : ∀ (fs : List Finds) (r : Limiter) (k : Nat) (f : Finds) (d : Did), fs[k]? = some f → (sleeps r fs)[k]? = some d →
    (∀ t, d.till = some t → inNanos f.before < inNanos t ∧ d.time = f.after) ∧ (d.till = none → d.time = f.before) ∧
      (Adjusts r.freq (r.count + k + 1) → d.period = f.adjusted) ∧
      (¬ Adjusts r.freq (r.count + k + 1) → some d.period = (r.period :: (sleeps r fs).map (·.period))[k]?)
  | [], _, _, _, _, h, _ => by simp at h
  | f' :: fs, r, 0, f, d, h, g => by
    have g' : ((Rate.sleep r f').2 :: sleeps (Rate.sleep r f').1 fs)[0]? = some d := g
    simp only [List.getElem?_cons_zero, Option.some.injEq] at h g'
    subst h
    subst g'
    obtain ⟨_, _, _, e4, e5, e6⟩ := sleep_effect r f'
    refine ⟨e5, e6, fun ha => ?_, fun ha => ?_⟩
    · rw [e4, if_pos ha]
    · rw [e4, if_neg ha]; rfl
  | f' :: fs, r, k + 1, f, d, h, g => by
    have g' : ((Rate.sleep r f').2 :: sleeps (Rate.sleep r f').1 fs)[k + 1]? = some d := g
    simp only [List.getElem?_cons_succ] at h g'
    obtain ⟨e1, e2, e3, _, _, _⟩ := sleep_effect r f'
    obtain ⟨i1, i2, i3, i4⟩ := sleeps_effect fs _ k f d h g'
    rw [e1, e2, show r.count + 1 + k + 1 = r.count + (k + 1) + 1 by omega] at i3 i4
    refine ⟨i1, i2, i3, fun ha => ?_⟩
    rw [i4 ha, e3]
    rfl

/-- C78: a call sleeps only until a time that is still to come, so one that comes late does not; and the period is the one computed anew
at every `freq`-th call but the first of these, at all others that of the call before. -/
theorem C78_calls (freq : Nat) (period : Timespec) (fs : List Finds) (k : Nat) (f : Finds) (d : Did) (hf : fs[k]? = some f)
    (hd : (sleeps (Rate.init freq period) fs)[k]? = some d) :
    (∀ t, d.till = some t → inNanos f.before < inNanos t ∧ d.time = f.after) ∧ (d.till = none → d.time = f.before) ∧
      (Adjusts freq (k + 1) → d.period = f.adjusted) ∧
      (¬ Adjusts freq (k + 1) → some d.period = (period :: (sleeps (Rate.init freq period) fs).map (·.period))[k]?) := by
  have := sleeps_effect fs (Rate.init freq period) k f d hf hd
  simpa [Rate.init] using this

/-- C78: the first call always sleeps, at most a period. -/
theorem C78_first (freq : Nat) (period : Timespec) (f : Finds) (fs : List Finds) (hc : ClockTime f.before) (hp : ClockTime period)
    (h0 : 0 < inNanos period) :
    ∃ t d ds, sleeps (Rate.init freq period) (f :: fs) = d :: ds ∧ d.till = some t ∧ inNanos f.before < inNanos t ∧
      inNanos t ≤ inNanos f.before + inNanos period := by
  obtain ⟨_, h1, h2⟩ := tick_spec hc hp h0
  refine ⟨calcNextTick f.before period, (Rate.sleep (Rate.init freq period) f).2, _, rfl, ?_, h1, h2⟩
  have key : ∀ r' : Limiter, r'.nextTick = calcNextTick f.before period →
      (if tsNanos (timespecSub f.before r'.nextTick) > 0 then some r'.nextTick else none) = some (calcNextTick f.before period) := by
    intro r' hr
    rw [nanos_sub, hr, if_pos (by omega)]
  refine key _ ?_
  simp only [Rate.init]
  split <;> split <;> first | rfl | (next h _ => exact absurd trivial h)

/-- The clock shows `a` at first, and `b` after a sleep. -/
def clockOf (a b : Int × Int) : Finds := ⟨⟨a.1, a.2⟩, ⟨b.1, b.2⟩, ⟨0, 0⟩⟩

/-- Ten a second: the second call comes late and does not sleep. -/
example : sleeps (Rate.init 0 ⟨0, 100000000⟩)
      [clockOf (5, 30) (5, 100000000), clockOf (5, 250000000) (0, 0), clockOf (5, 260000000) (5, 300000007), clockOf (5, 990000000) (0, 0),
        clockOf (5, 990000001) (6, 1)] =
    [⟨some ⟨5, 100000000⟩, ⟨5, 100000000⟩, ⟨0, 100000000⟩⟩, ⟨none, ⟨5, 250000000⟩, ⟨0, 100000000⟩⟩,
      ⟨some ⟨5, 300000000⟩, ⟨5, 300000007⟩, ⟨0, 100000000⟩⟩, ⟨none, ⟨5, 990000000⟩, ⟨0, 100000000⟩⟩,
      ⟨some ⟨6, 0⟩, ⟨6, 1⟩, ⟨0, 100000000⟩⟩] := by decide +kernel

/-- With `freq` two the fourth call is the first to adjust. -/
example : (sleeps (Rate.init 2 ⟨0, 100000000⟩)
      [⟨⟨5, 30⟩, ⟨5, 100000000⟩, ⟨0, 1⟩⟩, ⟨⟨5, 250000000⟩, ⟨0, 0⟩, ⟨0, 2⟩⟩, ⟨⟨5, 260000000⟩, ⟨5, 300000007⟩, ⟨0, 3⟩⟩,
        ⟨⟨5, 990000000⟩, ⟨0, 0⟩, ⟨0, 40000000⟩⟩, ⟨⟨5, 990000001⟩, ⟨6, 1⟩, ⟨0, 5⟩⟩]).map (·.period.nsec) =
      [100000000, 100000000, 100000000, 40000000, 40000000] ∧ Adjusts 2 4 ∧ ¬ Adjusts 2 2 := by decide +kernel

/-- Three a second, for which the period is 333333333 ns: four calls return within one second, though all sleep as long as they
should. -/
theorem C78_counterexample : ∃ fs : List Finds, SleptWell fs (sleeps (Rate.init 0 ⟨0, 333333333⟩) fs) ∧
    (∀ d ∈ sleeps (Rate.init 0 ⟨0, 333333333⟩) fs, d.period = ⟨0, 333333333⟩) ∧
    ((sleeps (Rate.init 0 ⟨0, 333333333⟩) fs).filter fun d => decide (d.time.sec = 5)).length = 4 := by
  refine ⟨[clockOf (4, 999999990) (5, 333333332), clockOf (5, 333333332) (5, 333333333), clockOf (5, 333333334) (5, 666666666),
    clockOf (5, 666666667) (5, 999999999)], ⟨?_, ?_⟩, by decide +kernel, by decide +kernel⟩
  · unfold ClockTime; decide +kernel
  · have : ∀ d ∈ sleeps (Rate.init 0 ⟨0, 333333333⟩) [clockOf (4, 999999990) (5, 333333332), clockOf (5, 333333332) (5, 333333333),
        clockOf (5, 333333334) (5, 666666666), clockOf (5, 666666667) (5, 999999999)],
        ∀ t ∈ d.till.toList, inNanos t ≤ inNanos d.time := by decide +kernel
    intro d hd t ht
    exact this d hd t (by simp [ht])

/-- A signal ends the sleep of the second call, which is not begun again: the call returns before the time until which it was to
sleep, and the third sleeps until the same time. -/
theorem C78_signal_counterexample : ∃ fs : List Finds, (∀ f ∈ fs, ClockTime f.before ∧ ClockTime f.after) ∧
    (sleeps (Rate.init 0 ⟨0, 500000000⟩) fs).map (fun d => (d.till, d.time)) =
      [(some ⟨5, 500000000⟩, ⟨5, 500000000⟩), (some ⟨6, 0⟩, ⟨5, 600000000⟩), (some ⟨6, 0⟩, ⟨5, 700000000⟩)] ∧
    ¬ ((sleeps (Rate.init 0 ⟨0, 500000000⟩) fs).filter fun d => decide (d.time.sec = 5)).length ≤ 2 :=
  ⟨[clockOf (5, 0) (5, 500000000), clockOf (5, 500000000) (5, 600000000), clockOf (5, 600000000) (5, 700000000)],
    by unfold ClockTime; decide +kernel, by decide +kernel, by decide +kernel⟩

end Verif.Props
