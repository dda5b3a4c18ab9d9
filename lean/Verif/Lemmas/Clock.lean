import Verif.Lemmas.TwinRun

/-!
# Times and deadlines
-/

namespace Verif
open Spec

theorem timespecGe_iff {a b : Timespec} (ha : Normal a) (hb : Normal b) :
    timespecGe a b = true ↔ ns b ≤ ns a := by
  obtain ⟨a1, a2⟩ := ha
  obtain ⟨b1, b2⟩ := hb
  unfold timespecGe ns
  split
  · simp; omega
  · split
    · simp; omega
    · split
      · simp; omega
      · simp; omega

theorem timespecAdd_normal {a b : Timespec} (ha : Normal a) (hb : Normal b) :
    Normal (timespecAdd a b) ∧ ns (timespecAdd a b) = ns a + ns b := by
  obtain ⟨a1, a2⟩ := ha
  obtain ⟨b1, b2⟩ := hb
  unfold timespecAdd
  cases hn : (a.nsec + b.nsec).toNat with
  | zero =>
    simp only [carryNsec, Normal, ns]
    omega
  | succ n =>
    simp only [carryNsec]
    split
    · rename_i h
      have : carryNsec n ⟨b.sec + a.sec + 1, b.nsec + a.nsec - 1000000000⟩ =
          ⟨b.sec + a.sec + 1, b.nsec + a.nsec - 1000000000⟩ := by
        cases n with
        | zero => rfl
        | succ n => rw [carryNsec, if_neg (by simp only; omega)]
      rw [this]
      simp only [Normal, ns]
      omega
    · rename_i h
      simp only [Normal, ns]
      omega

/-- The deadline that a call sets is its `stopTime`. -/
theorem armTimer_deadline {l : Limits} {w : World} (hl : NormalLimits l) (hn : Normal (w.clock w.tick))
    {stop : Int} (hs : stopTime l (w.clock w.tick) = some stop) :
    l.active = true ∧ Normal (armTimer l w).deadline ∧ ns (armTimer l w).deadline = stop ∧
      (armTimer l w).tick = w.tick + if l.doTimeout then 1 else 0 := by
  obtain ⟨h1, h2⟩ := hl
  obtain ⟨h3, h4⟩ := timespecAdd_normal h1 hn
  have hact : l.active = true := by
    unfold stopTime at hs
    unfold Limits.active
    cases hT : l.doTimeout <;> cases hD : l.doDeadline <;> simp_all
  have harm : (armTimer l w).deadline = (setDeadline l w).deadline ∧
      (armTimer l w).tick = (setDeadline l w).tick := by
    unfold armTimer
    rw [if_pos hact]
    exact ⟨rfl, rfl⟩
  refine ⟨hact, ?_⟩
  rw [harm.1, harm.2]
  unfold setDeadline
  unfold stopTime at hs
  cases hT : l.doTimeout <;> cases hD : l.doDeadline <;> simp only [hT, hD] at hs ⊢
  · cases hs
  · cases hs; exact ⟨h2, rfl, rfl⟩
  · cases hs
    simp only [if_true, Bool.false_and, Bool.false_eq_true, if_false]
    exact ⟨h3, by omega, trivial⟩
  · cases hs
    simp only [if_true, Bool.true_and, Bool.not_eq_true', ← Bool.not_eq_true]
    have := timespecGe_iff h2 h3
    split
    · rename_i h
      have := mt this.2 h
      exact ⟨h2, by simp only [Int.min_def]; split <;> omega, trivial⟩
    · rename_i h
      have := this.1 (Classical.not_not.1 h)
      exact ⟨h3, by simp only [Int.min_def]; split <;> omega, trivial⟩

theorem timely_onTime {c : Call} (hc : Timely c) (hl : NormalLimits c.lim)
    (hn : ∀ i, Normal (c.before.clock i)) {stop : Int}
    (hs : stopTime c.lim (c.before.clock c.before.tick) = some stop) : OnTime c stop := by
  obtain ⟨-, hd1, hd2, ht⟩ := armTimer_deadline hl (hn _) hs
  have hck := TwinSet.armTimer_clock c.lim c.before
  replace ht : (armTimer c.lim c.before).tick = c.firstReading := ht
  obtain ⟨-, -, hle, h⟩ := hc
  have key : ∀ i, timespecGe ((armTimer c.lim c.before).clock i) (armTimer c.lim c.before).deadline = true ↔
      stop ≤ ns (c.before.clock i) := by
    intro i
    rw [hck, timespecGe_iff (hn i) hd1, hd2]
  rcases h with ⟨hr, i, h1, h2, h3, h4⟩ | ⟨hr, h⟩
  · refine .inl ⟨hr, i, ht ▸ h2, h1, (key i).1 h3, fun j hj hji => ?_⟩
    have := h4 j (by rw [ht]; exact hj) hji
    have := mt (key j).2 (by rw [this]; simp)
    omega
  · refine .inr ⟨hr, fun j hj hja => ?_⟩
    have := h j (by rw [ht]; exact hj) hja
    have := mt (key j).2 (by rw [this]; simp)
    omega

end Verif
