import Verif.Model.ReadBytes
import Verif.Model.Util

/-!
# C77: reading a number of bytes
-/

namespace Verif.Props
open Verif.ReadBytes

theorem loop_reads : ∀ (as : List Answer) (all buf : Bytes) (off needed : Nat), off ≤ all.length → off + needed ≤ buf.length →
    loop as (all.drop off) (all.take off ++ buf.drop off) off needed = .fault .diverge ∧ as.countP (· ≠ .interrupted) < needed ∨
    ∃ b k, loop as (all.drop off) (all.take off ++ buf.drop off) off needed = .ok (b, all.take k ++ buf.drop k, all.drop k) ∧
      off ≤ k ∧ k ≤ all.length ∧ k ≤ off + needed ∧ (b = true ↔ k = off + needed) ∧
      (b = false → k = all.length ∨ .failed ∈ as) := by
  intro as
  induction as with
  | nil =>
    intro all buf off needed h1 h2
    cases needed with
    | zero => exact .inr ⟨true, off, by simp [loop], Nat.le_refl _, h1, by omega, by simp, by simp⟩
    | succ m => exact .inl ⟨by simp [loop], by simp⟩
  | cons a as ih =>
    intro all buf off needed h1 h2
    cases needed with
    | zero => exact .inr ⟨true, off, by simp [loop], Nat.le_refl _, h1, by omega, by simp, by simp⟩
    | succ m =>
      cases a with
      | interrupted =>
        rw [loop]
        rcases ih all buf off (m + 1) h1 h2 with ⟨g1, g2⟩ | ⟨b, k, g1, g2, g3, g4, g5, g6⟩
        · exact .inl ⟨g1, by simpa using g2⟩
        · exact .inr ⟨b, k, g1, g2, g3, g4, g5, fun h => (g6 h).imp id fun h => by simp [h]⟩
      | failed =>
        exact .inr ⟨false, off, by rw [loop], Nat.le_refl _, h1, by omega, by simp, fun _ => .inr (by simp)⟩
      | upTo n =>
        rw [loop]
        generalize hbs : (all.drop off).take (min (n + 1) (m + 1)) = bs
        have hlen : bs.length = min (min (n + 1) (m + 1)) (all.length - off) := by rw [← hbs]; simp
        split
        · next h0 =>
          refine .inr ⟨false, off, rfl, Nat.le_refl _, h1, by omega, by simp, fun _ => .inl (by omega)⟩
        · next h0 =>
          have hput : store (all.take off ++ buf.drop off) off bs =
              .ok (all.take (off + bs.length) ++ buf.drop (off + bs.length)) := by
            unfold store
            rw [if_pos (by simp; omega)]
            have e1 : (all.take off).length = off := by simp; omega
            have e2 : all.take (off + bs.length) = all.take off ++ bs := by
              rw [List.take_add, ← hbs, List.length_take, List.length_drop]
              congr 1
              rw [List.take_eq_take_iff]
              simp
            rw [e2, List.take_append_of_le_length (by omega), List.take_of_length_le (by omega), List.drop_append, e1]
            rw [List.drop_of_length_le (by omega), List.nil_append, List.drop_drop]
            rw [show off + (off + bs.length - off) = off + bs.length by omega]
          rw [hput]
          simp only [Out.ok_bind, List.drop_drop]
          rcases ih all buf (off + bs.length) (m + 1 - bs.length) (by omega) (by omega) with ⟨g1, g2⟩ | ⟨b, k, g1, g2, g3, g4, g5, g6⟩
          · refine .inl ⟨g1, ?_⟩
            rw [List.countP_cons_of_pos (by simp)]
            omega
          · refine .inr ⟨b, k, g1, by omega, g3, by omega, ?_, fun h => (g6 h).imp id fun h => by simp [h]⟩
            rw [g5]
            omega

theorem loop_length : ∀ (as : List Answer) (input buf : Bytes) (off needed : Nat) {b : Bool} {buf' rest : Bytes},
    loop as input buf off needed = .ok (b, buf', rest) → buf'.length = buf.length ∧ buf'.take off = buf.take off
  | _, _, _, _, 0, _, _, _, h => by
    simp only [loop, Out.ok.injEq, Prod.mk.injEq] at h
    rw [h.2.1]; exact ⟨rfl, rfl⟩
  | [], _, _, _, _ + 1, _, _, _, h => by simp [loop] at h
  | .interrupted :: as, input, buf, off, needed + 1, _, _, _, h => by
    rw [loop] at h
    exact loop_length as input buf off (needed + 1) h
  | .failed :: _, _, _, _, _ + 1, _, _, _, h => by
    simp only [loop, Out.ok.injEq, Prod.mk.injEq] at h
    rw [h.2.1]; exact ⟨rfl, rfl⟩
  | .upTo n :: as, input, buf, off, needed + 1, _, _, _, h => by
    rw [loop] at h
    generalize input.take (min (n + 1) (needed + 1)) = bs at h
    split at h
    · simp only [Out.ok.injEq, Prod.mk.injEq] at h
      rw [h.2.1]; exact ⟨rfl, rfl⟩
    · unfold store at h
      split at h
      · next hle =>
        rw [Out.ok_bind] at h
        obtain ⟨i1, i2⟩ := loop_length as _ _ _ _ h
        have e : (buf.take off ++ bs ++ buf.drop (off + bs.length)).length = buf.length := by simp; omega
        refine ⟨by rw [i1, e], ?_⟩
        have := congrArg (List.take off) i2
        rw [List.take_take, List.take_take, show min off (off + bs.length) = off by omega] at this
        rw [this, List.append_assoc, List.take_append_of_le_length (by simp; omega), List.take_take, Nat.min_self]
      · exact absurd h (by simp [Bind.bind, Out.bind])

/-- C77: whatever the size of the buffer, a call that returns has stored within it. -/
theorem C77_within (as : List Answer) (input buf : Bytes) (needed : Nat) {b : Bool} {buf' rest : Bytes}
    (h : readBytes as input buf needed = .ok (b, buf', rest)) : buf'.length = buf.length :=
  (loop_length as input buf 0 needed h).1

/-- C77: whatever the system answers, `read_bytes` takes `k` bytes from the descriptor, at most as many as it was to, puts them at the
beginning of the buffer and changes nothing behind them; it returns true exactly if it has all of them, and false only at the end of the
file or after an error.  It does not return only as long as the system does not answer, or answers that a signal came. -/
theorem C77_reads (as : List Answer) (input buf : Bytes) (needed : Nat) (h : needed ≤ buf.length) :
    (readBytes as input buf needed = .fault .diverge ∧ as.countP (· ≠ .interrupted) < needed) ∨
    ∃ b k, readBytes as input buf needed = .ok (b, input.take k ++ buf.drop k, input.drop k) ∧ k ≤ input.length ∧ k ≤ needed ∧
      (b = true ↔ k = needed) ∧ (b = false → k = input.length ∨ .failed ∈ as) := by
  rcases loop_reads as input buf 0 needed (Nat.zero_le _) (by omega) with ⟨g1, g2⟩ | ⟨b, k, g1, _, g3, g4, g5, g6⟩
  · exact .inl ⟨by simpa [readBytes] using g1, g2⟩
  · exact .inr ⟨b, k, by simpa [readBytes] using g1, g3, by omega, by simpa using g5, g6⟩

/-- C77: without errors, `needed` answers other than signals are enough, and the result is that there are as many bytes as it was to
read. -/
theorem C77_returns {as : List Answer} {input buf : Bytes} {needed : Nat} (h : needed ≤ buf.length)
    (ha : needed ≤ as.countP (· ≠ .interrupted)) (hf : .failed ∉ as) :
    readBytes as input buf needed =
      .ok (decide (needed ≤ input.length), input.take needed ++ buf.drop (min needed input.length), input.drop needed) := by
  rcases C77_reads as input buf needed h with ⟨_, g⟩ | ⟨b, k, g1, g2, g3, g4, g5⟩
  · omega
  · rw [g1]
    cases b with
    | true =>
      have : k = needed := g4.1 rfl
      subst this
      rw [decide_eq_true g2, Nat.min_eq_left g2]
    | false =>
      have hk : k = input.length := (g5 rfl).resolve_right hf
      have hn : k ≠ needed := fun e => absurd (g4.2 e) (by simp)
      subst hk
      rw [decide_eq_false (by omega), Nat.min_eq_right (by omega), List.take_length, List.drop_length,
        List.take_of_length_le (i := needed) (by omega), List.drop_of_length_le (l := input) (i := needed) (by omega)]

example : readBytes [.interrupted, .upTo 1, .interrupted, .upTo 0, .upTo 9] [1, 2, 3, 4, 5, 6] [0, 0, 0, 0, 0, 0] 5 =
    .ok (true, [1, 2, 3, 4, 5, 0], [6]) ∧
    readBytes [.upTo 1, .upTo 9, .interrupted, .upTo 9] [1, 2, 3] [0, 0, 0, 0, 0, 0] 5 = .ok (false, [1, 2, 3, 0, 0, 0], []) ∧
    readBytes [.upTo 1, .failed] [1, 2, 3] [0, 0, 0] 3 = .ok (false, [1, 2, 0], [3]) ∧
    readBytes [.upTo 1, .upTo 0] [1, 2, 3] [0, 0] 3 = .fault .oobWrite := by decide +kernel

end Verif.Props
