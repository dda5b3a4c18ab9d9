import Verif.Lemmas.Calendar

/-!
# RFC 3339 time stamps (C41)
-/

namespace Verif.Props
open Spec

theorem rfc_text {gmtime : Int → Option Tm} (hg : GmtimeOk gmtime) {v : Nat} (hv : v ≤ endOf9999) :
    ∃ t : Stamp, t.Valid ∧ t.seconds = v ∧ t.year ≤ 9999 ∧ rfc3339Text gmtime v = .ok (stampString t) := by
  obtain ⟨t, ht, hs⟩ := stamp_exists v
  have hy := year_le ht (by omega)
  refine ⟨t, ht, hs, hy, ?_⟩
  have hT : toTimeT v = (t.seconds : Int) := by
    unfold toTimeT endOf9999 at *
    rw [if_pos (by omega), hs]
  unfold rfc3339Text
  rw [hT, hg t ht (by omega)]
  simp only [fmtRfc3339_eq, Out.ok_bind]
  rw [rfcString_tm ht hy]
  simp

/-- C41.  For every second up to the end of 9999, the text printed reads back as the same time. -/
theorem C41_faithful {gmtime : Int → Option Tm} (hg : GmtimeOk gmtime) {v : Nat} (hv : v ≤ endOf9999) (u : Bytes) :
    ∃ s, fmtRfc3339Time gmtime u v = .ok (u ++ s) ∧ readStamp s = some v := by
  obtain ⟨t, ht, hs, hy, h⟩ := rfc_text hg hv
  refine ⟨stampString t, ?_, ?_⟩
  · unfold fmtRfc3339Time; rw [h]; rfl
  · rw [readStamp_string ht hy, hs]

/-- C41, JSON.  The same text, as a JSON string. -/
theorem C41_json {gmtime : Int → Option Tm} (hg : GmtimeOk gmtime) {v : Nat} (hv : v ≤ endOf9999) (u rest : Bytes) :
    ∃ s t, fmtRfc3339TimeJson gmtime u v = .ok (u ++ 34 :: t) ∧ jsonString (t ++ rest) = some (s, rest) ∧
      readStamp s = some v := by
  obtain ⟨t, ht, hs, hy, h⟩ := rfc_text hg hv
  refine ⟨stampString t, (stampString t).flatMap escOf ++ [34], ?_, ?_, ?_⟩
  · unfold fmtRfc3339TimeJson; rw [h]; simp only [Out.ok_bind, valueString_eq]
  · rw [List.append_assoc]; exact jsonString_escaped _ _
  · rw [readStamp_string ht hy, hs]

/-- C41, order.  An earlier time is printed as a smaller text (byte order); in particular different
times print differently. -/
theorem C41_order {gmtime : Int → Option Tm} (hg : GmtimeOk gmtime) {v w : Nat} (h : v < w) (hw : w ≤ endOf9999) :
    ∃ s t, fmtRfc3339Time gmtime [] v = .ok s ∧ fmtRfc3339Time gmtime [] w = .ok t ∧ s < t ∧ s ≠ t := by
  obtain ⟨a, ha, hs, -, h1⟩ := rfc_text hg (Nat.le_trans (Nat.le_of_lt h) hw)
  obtain ⟨b, hb, ht, hy, h2⟩ := rfc_text hg hw
  have hlt := stampString_lt hb hy (before_of_lt ha hb (by omega))
  refine ⟨stampString a, stampString b, ?_, ?_, hlt, ?_⟩
  · unfold fmtRfc3339Time; rw [h1]; rfl
  · unfold fmtRfc3339Time; rw [h2]; rfl
  · intro he; rw [he] at hlt; exact List.lt_irrefl _ hlt

/-- The contract of `gmtime_r` can be met: every second has exactly one date. -/
theorem gmtime_exists : ∃ gmtime, GmtimeOk gmtime := by
  classical
  refine ⟨fun v => if h : ∃ t : Stamp, t.Valid ∧ (t.seconds : Int) = v then some (Classical.choose h).tm else none, ?_⟩
  intro t ht _
  have hex : ∃ t' : Stamp, t'.Valid ∧ (t'.seconds : Int) = t.seconds := ⟨t, ht, rfl⟩
  simp only [dif_pos hex]
  have hc := Classical.choose_spec hex
  congr 2
  refine Classical.byContradiction fun hne => ?_
  rcases Nat.lt_trichotomy (Classical.choose hex).seconds t.seconds with h | h | h
  · omega
  · have hn : ¬ (Classical.choose hex).before t := fun hb => by have := seconds_lt hc.1 ht hb; omega
    have hn' : ¬ t.before (Classical.choose hex) := fun hb => by have := seconds_lt ht hc.1 hb; omega
    apply hne
    revert hn hn'
    generalize Classical.choose hex = a
    obtain ⟨a1, a2, a3, a4, a5, a6⟩ := a
    obtain ⟨b1, b2, b3, b4, b5, b6⟩ := t
    simp only [Stamp.before, Stamp.mk.injEq]
    omega
  · omega

/-- A leap day and the last second of 9999. -/
example : (⟨2024, 2, 29, 23, 59, 58⟩ : Stamp).Valid ∧ (⟨2024, 2, 29, 23, 59, 58⟩ : Stamp).seconds = 1709251198 ∧
    fmtRfc3339Time (fun _ => some (⟨2024, 2, 29, 23, 59, 58⟩ : Stamp).tm) [] 1709251198 =
      .ok ("2024-02-29T23:59:58Z".toList.map fun c => UInt8.ofNat c.toNat) ∧
    (⟨9999, 12, 31, 23, 59, 59⟩ : Stamp).seconds = endOf9999 := by
  decide +kernel

/-- Beyond 9999 the year loses its leading digits: the first second of 10000 prints like one of the year
zero, and a time whose year does not fit an `int`, for which `gmtime_r` returns `NULL`, aborts. -/
theorem C41_limits :
    fmtRfc3339Time (fun _ => some (⟨10000, 1, 1, 0, 0, 0⟩ : Stamp).tm) [] 253402300800 =
      .ok ("0000-01-01T00:00:00Z".toList.map fun c => UInt8.ofNat c.toNat) ∧
    (∀ v, fmtRfc3339Time (fun _ => none) [] v = .fault .abort) := by
  refine ⟨by decide +kernel, fun v => rfl⟩

end Verif.Props
