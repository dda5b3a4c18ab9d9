import Verif.Spec.Rate

/-!
# Lemmas about the limiter
-/

namespace Verif.Rate
open Verif.Spec

theorem carry_one {fuel : Nat} {t : Timespec} (h : t.nsec < 2000000000) (hf : t.nsec ≤ fuel) (h0 : 0 ≤ t.nsec) :
    carry fuel t = if t.nsec ≥ 1000000000 then ⟨t.sec + 1, t.nsec - 1000000000⟩ else t := by
  cases fuel with
  | zero => rw [carry, if_neg (by omega)]
  | succ fuel =>
    rw [carry]
    split
    · cases fuel with
      | zero => rfl
      | succ fuel => rw [carry, if_neg (by simp only; omega)]
    · rfl

/-- The part of `a` that is a multiple of `p`, and the next. -/
theorem next_multiple {a p : Int} (ha : 0 ≤ a) (hp : 0 < p) : a - a.tmod p + p = (a / p + 1) * p := by
  have h := Int.mul_ediv_add_emod a p
  rw [Int.tmod_eq_emod_of_nonneg ha]
  rw [Int.add_mul, Int.mul_comm (a / p) p]
  omega

theorem step_bounds {a p : Int} (ha : 0 ≤ a) (hp : 0 < p) : a < a - a.tmod p + p ∧ a - a.tmod p + p ≤ a + p := by
  rw [Int.tmod_eq_emod_of_nonneg ha]
  have h1 := Int.emod_nonneg a (show p ≠ 0 by omega)
  have h2 := Int.emod_lt_of_pos a hp
  omega

theorem tick_spec {t m : Timespec} (ht : ClockTime t) (hm : ClockTime m) (h0 : 0 < inNanos m) :
    ClockTime (calcNextTick t m) ∧ inNanos t < inNanos (calcNextTick t m) ∧
      inNanos (calcNextTick t m) ≤ inNanos t + inNanos m := by
  obtain ⟨t1, t2, t3⟩ := ht
  obtain ⟨m1, m2, m3⟩ := hm
  unfold inNanos at h0 ⊢
  unfold calcNextTick
  simp only
  have hs : ∃ s, (if m.sec > 0 then t.sec - t.sec.tmod m.sec + m.sec else t.sec) = s ∧ s ≤ t.sec + m.sec ∧
      (0 < m.sec → t.sec + 1 ≤ s) ∧ (m.sec = 0 → s = t.sec) := by
    refine ⟨_, rfl, ?_⟩
    split
    · next h =>
      have := step_bounds t1 h
      omega
    · omega
  have hn : ∃ n, (if m.nsec > 0 then t.nsec - t.nsec.tmod m.nsec + m.nsec else 0) = n ∧ 0 ≤ n ∧ n ≤ t.nsec + m.nsec ∧
      (0 < m.nsec → t.nsec < n) ∧ (m.nsec = 0 → n = 0) := by
    refine ⟨_, rfl, ?_⟩
    split
    · next h =>
      have := step_bounds t2 h
      omega
    · omega
  obtain ⟨s, es, s1, s2, s3⟩ := hs
  obtain ⟨n, en, n1, n2, n3, n4⟩ := hn
  rw [es, en, carry_one (by simp only; omega) (by simp only; omega) n1]
  unfold ClockTime
  split <;> (simp only at *; omega)

theorem nanos_sub (a b : Timespec) : tsNanos (timespecSub a b) = inNanos b - inNanos a := by
  unfold tsNanos timespecSub inNanos
  simp only
  split <;> (simp only; omega)

/-- What is known between the calls: the tick was set at the time `a`. -/
structure Ticked (r : Limiter) (d : Did) : Prop where
  tick : r.nextTick = calcNextTick d.time d.period
  period : r.period = d.period
  count : 0 < r.count

theorem sleep_set (r : Limiter) (f : Finds) : Ticked (sleep r f).1 (sleep r f).2 := by
  refine ⟨rfl, rfl, ?_⟩
  unfold sleep
  simp only
  split <;> split <;> simp

theorem sleep_at {r : Limiter} {d : Did} (h : Ticked r d) (f : Finds) :
    ((sleep r f).2.till = some (calcNextTick d.time d.period) ∧ (sleep r f).2.time = f.after) ∨
    ((sleep r f).2.till = none ∧ (sleep r f).2.time = f.before ∧ inNanos (calcNextTick d.time d.period) ≤ inNanos f.before) := by
  have hc := h.count
  unfold sleep
  simp only
  rw [if_neg (show ¬ r.count + 1 = 1 by omega)]
  have key : ∀ r' : Limiter, r'.nextTick = r.nextTick →
      ((if tsNanos (timespecSub f.before r'.nextTick) > 0 then some r'.nextTick else none) = some (calcNextTick d.time d.period) ∧
        (if tsNanos (timespecSub f.before r'.nextTick) > 0 then f.after else f.before) = f.after) ∨
      ((if tsNanos (timespecSub f.before r'.nextTick) > 0 then some r'.nextTick else none) = none ∧
        (if tsNanos (timespecSub f.before r'.nextTick) > 0 then f.after else f.before) = f.before ∧
        inNanos (calcNextTick d.time d.period) ≤ inNanos f.before) := by
    intro r' hr'
    rw [hr', h.tick, nanos_sub]
    split
    · exact .inl ⟨rfl, rfl⟩
    · exact .inr ⟨rfl, rfl, by omega⟩
  split
  · exact key _ rfl
  · exact key _ rfl

end Verif.Rate
