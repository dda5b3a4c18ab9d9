import Verif.Model.Lookup
import Verif.Lemmas.QueryCore

/-! # C46: strict time mode of `dnstable_lookup` -/

namespace Verif.Props
open Verif Verif.Spec

/-- What `-c` promises (`/repo/man/dnstable_lookup.1.txt:66-74`): both times of the record within the `-A` and
`-B` bounds given; the `-a` and `-b` bounds keep their meaning. -/
def Strictly (t : CliTimes) (o : Obs) : Prop :=
  (t.lastAfter ≠ 0 → t.lastAfter ≤ o.first ∧ t.lastAfter ≤ o.last) ∧
  (t.firstBefore ≠ 0 → o.first ≤ t.firstBefore ∧ o.last ≤ t.firstBefore) ∧
  (t.firstAfter ≠ 0 → t.firstAfter ≤ o.first) ∧ (t.lastBefore ≠ 0 → o.last ≤ t.lastBefore)

/-- What the four options promise without `-c`. -/
def Loosely (t : CliTimes) (o : Obs) : Prop :=
  (t.lastAfter ≠ 0 → t.lastAfter ≤ o.last) ∧ (t.firstBefore ≠ 0 → o.first ≤ t.firstBefore) ∧
  (t.firstAfter ≠ 0 → t.firstAfter ≤ o.first) ∧ (t.lastBefore ≠ 0 → o.last ≤ t.lastBefore)

private theorem inBounds_cli (t : CliTimes) (o : Obs) :
    inBounds (cliBounds false t) o = true ↔ Loosely t o := by
  unfold inBounds cliBounds Loosely optTime
  simp only [Bool.false_eq_true, if_false, Bool.and_eq_true]
  constructor
  · rintro ⟨⟨⟨h1, h2⟩, h3⟩, h4⟩
    refine ⟨fun h => ?_, fun h => ?_, fun h => ?_, fun h => ?_⟩
    · rw [if_pos h] at h4; simpa using h4
    · rw [if_pos h] at h1; simpa using h1
    · rw [if_pos h] at h2; simpa using h2
    · rw [if_pos h] at h3; simpa using h3
  · rintro ⟨h4, h1, h2, h3⟩
    refine ⟨⟨⟨?_, ?_⟩, ?_⟩, ?_⟩
    · split
      · next h => simpa using h1 h
      · rfl
    · split
      · next h => simpa using h2 h
      · rfl
    · split
      · next h => simpa using h3 h
      · rfl
    · split
      · next h => simpa using h4 h
      · rfl

/-- C46 (partial: see `C46_unset_last_counterexample` for records stored without a last-seen time): with `-c` the library is asked for exactly the records lying entirely within the bounds, for every
combination of bounds and every record first seen no later than last seen. -/
theorem C46_strict_partial (t : CliTimes) (o : Obs) (h : o.legal) (ht : o.first ≤ o.last) :
    timeMatch (cliBounds true t) false o.value = .ok true ↔ Strictly t o := by
  have e : cliBounds true t = cliBounds false (strictTimes t) := rfl
  rw [timeMatch_value h, Out.ok.injEq, e, inBounds_cli]
  rcases t with ⟨a, A, b, B⟩
  rcases o with ⟨f, l, c⟩
  simp only at ht
  unfold strictTimes Loosely Strictly
  simp only
  repeat' split
  all_goals simp only [] at *
  all_goals omega

/-- Bounds 10 to 20: a record from 12 to 19 is selected, one from 12 to 21 is not, though without `-c` it is. -/
example : timeMatch (cliBounds true ⟨0, 10, 0, 20⟩) false (Obs.value ⟨12, 19, 1⟩) = .ok true
    ∧ timeMatch (cliBounds true ⟨0, 10, 0, 20⟩) false (Obs.value ⟨12, 21, 1⟩) = .ok false
    ∧ timeMatch (cliBounds false ⟨0, 10, 0, 20⟩) false (Obs.value ⟨12, 21, 1⟩) = .ok true := by decide +kernel

/-- C46: without `-c` the four bounds are handed on as they are. -/
theorem C46_loose (t : CliTimes) (o : Obs) (h : o.legal) :
    timeMatch (cliBounds false t) false o.value = .ok true ↔ Loosely t o := by
  rw [timeMatch_value h, Out.ok.injEq, inBounds_cli]

example : timeMatch (cliBounds false ⟨13, 0, 0, 0⟩) false (Obs.value ⟨12, 21, 1⟩) = .ok false := by decide +kernel

/-- C46 fails for records whose last-seen time is stored as 0 (shown to the user as the first-seen time): a
record first seen at 30 is selected by `-c -B 20`. -/
theorem C46_unset_last_counterexample : ∃ (t : CliTimes) (o : Obs), o.legal ∧ o.fixed.first ≤ o.fixed.last ∧
    timeMatch (cliBounds true t) false o.value = .ok true ∧ ¬ Strictly t o.fixed ∧ ¬ Strictly t o :=
  ⟨⟨0, 0, 0, 20⟩, ⟨30, 0, 1⟩, ⟨by decide, by decide, by decide⟩, by decide, by decide +kernel,
    by simp [Strictly, Obs.fixed], by simp [Strictly]⟩

end Verif.Props
