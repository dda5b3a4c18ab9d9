import Verif.Model.CStrings
import Verif.Spec.CStrings
import Verif.Lemmas.Format

/-!
# Lemmas about replacing and quoting
-/

namespace Verif.CStrings

open Verif.Spec

theorem infix_cons {old s : Bytes} {c : UInt8} : old <:+: c :: s ↔ old <+: c :: s ∨ old <:+: s := List.infix_cons_iff

theorem strstr_none {old : Bytes} : ∀ {s : Bytes}, strstr old s = none → ¬ old <:+: s
  | [], h, hi => by
    have : old = [] := by simpa using hi
    subst this
    simp [strstr] at h
  | c :: s, h, hi => by
    unfold strstr at h
    split at h
    · exact absurd h (by simp)
    · next hp =>
      rcases infix_cons.1 hi with h1 | h1
      · exact hp (List.isPrefixOf_iff_prefix.2 h1)
      · exact strstr_none (by simpa using h) h1

theorem strstr_some {old : Bytes} (h0 : old ≠ []) : ∀ {s : Bytes} {i : Nat}, strstr old s = some i →
    ∃ a b, s = a ++ old ++ b ∧ a.length = i ∧ ¬ old <:+: a ++ old.dropLast
  | [], i, h => by
    unfold strstr at h
    split at h
    · next hp => exact absurd (by simpa using List.isPrefixOf_iff_prefix.1 hp) h0
    · exact absurd h (by simp)
  | c :: s, i, h => by
    unfold strstr at h
    split at h
    · next hp =>
      obtain ⟨b, hb⟩ := List.isPrefixOf_iff_prefix.1 hp
      refine ⟨[], b, by simp [hb], by simpa using h, ?_⟩
      intro hi
      have := hi.length_le
      have := List.length_pos_iff.2 h0
      simp at *
      omega
    · next hp =>
      obtain ⟨j, hj, rfl⟩ := Option.map_eq_some_iff.1 h
      obtain ⟨a, b, rfl, rfl, hn⟩ := strstr_some h0 hj
      refine ⟨c :: a, b, by simp, by simp, ?_⟩
      intro hi
      rcases infix_cons.1 (by simpa using hi) with h1 | h1
      · apply hp
        refine List.isPrefixOf_iff_prefix.2 (h1.trans ?_)
        have : c :: (a ++ old ++ b) = c :: (a ++ old.dropLast) ++ ([old.getLast h0] ++ b) := by
          conv => lhs; rw [← List.dropLast_concat_getLast h0]
          simp
        rw [this]
        exact List.prefix_append _ _
      · exact hn h1

theorem replaceLoop_spec {old new : Bytes} (h0 : old ≠ []) : ∀ fuel s u, s.length < fuel →
    ∃ t, replaceLoop old new fuel s u = .ok (u ++ t) ∧ Replaced old new s t := by
  intro fuel
  induction fuel with
  | zero => intro s u h; omega
  | succ n ih =>
    intro s u hf
    unfold replaceLoop
    cases e : strstr old s with
    | none => exact ⟨s, rfl, .none (strstr_none e)⟩
    | some i =>
      obtain ⟨a, b, rfl, rfl, hn⟩ := strstr_some h0 e
      have hl := List.length_pos_iff.2 h0
      have hd : (a ++ old ++ b).drop a.length = old ++ b := by rw [List.append_assoc, List.drop_left]
      have ht : (a ++ old ++ b).take a.length = a := by rw [List.append_assoc, List.take_left]
      simp only [hd, ht]
      rw [if_neg (by simp; omega), List.drop_left]
      obtain ⟨t, et, hr⟩ := ih b (u ++ a ++ new) (by simp at hf; omega)
      exact ⟨a ++ new ++ t, by rw [et]; simp, .some hn hr⟩

theorem stringReplace_spec {s old new : Bytes} (h0 : old ≠ []) :
    ∃ t, stringReplace s old new = .ok t ∧ Replaced old new s t := by
  unfold stringReplace
  cases e : strstr old s with
  | none => exact ⟨s, rfl, .none (strstr_none e)⟩
  | some i =>
    obtain ⟨t, et, hr⟩ := replaceLoop_spec (new := new) h0 (s.length + 1) s [] (by omega)
    exact ⟨t, by simpa using et, hr⟩

/-- Where the first occurrence is does not depend on who looks. -/
theorem leftmost_unique {old a a' s s' : Bytes} (h0 : old ≠ []) (h : a ++ old ++ s = a' ++ old ++ s')
    (hn : ¬ old <:+: a ++ old.dropLast) (hn' : ¬ old <:+: a' ++ old.dropLast) : a = a' := by
  have key : ∀ {a a' s s' : Bytes}, a ++ old ++ s = a' ++ old ++ s' → ¬ old <:+: a' ++ old.dropLast → ¬ a.length < a'.length := by
    intro a a' s s' h hn' hlt
    apply hn'
    have h1 : a ++ old <+: a' ++ old.dropLast := by
      apply List.prefix_of_prefix_length_le (l₃ := a ++ old ++ s) (List.prefix_append _ _)
      · rw [h]
        have : a' ++ old ++ s' = a' ++ old.dropLast ++ ([old.getLast h0] ++ s') := by
          conv => lhs; rw [← List.dropLast_concat_getLast h0]
          simp
        rw [this]
        exact List.prefix_append _ _
      · have := List.length_pos_iff.2 h0
        simp
        omega
    exact (List.suffix_append a old).isInfix.trans h1.isInfix
  have hl : a.length = a'.length := by
    have h1 := key h hn'
    have h2 := key h.symm hn
    omega
  rw [List.append_assoc, List.append_assoc] at h
  exact (List.append_inj h hl).1

theorem replaced_unique {old new : Bytes} (h0 : old ≠ []) {s t : Bytes} (h : Replaced old new s t) :
    ∀ {t'}, Replaced old new s t' → t' = t := by
  induction h with
  | none hn =>
    intro t' h'
    cases h' with
    | none _ => rfl
    | some _ _ => exact absurd ⟨_, _, rfl⟩ hn
  | @some a s t hn _ ih =>
    intro t' h'
    generalize e : a ++ old ++ s = w at h'
    cases h' with
    | none hn' => exact absurd ⟨_, _, e⟩ hn'
    | some hn' hr =>
      have ha := leftmost_unique h0 e hn hn'
      subst ha
      have := List.append_cancel_left e
      subst this
      rw [ih hr]

theorem replaceLoop_forever {new : Bytes} : ∀ fuel s u, replaceLoop [] new fuel s u = .fault .diverge := by
  intro fuel
  induction fuel with
  | zero => intro s u; rfl
  | succ n ih =>
    intro s u
    have : strstr [] s = some 0 := by cases s <;> simp [strstr]
    unfold replaceLoop
    simp only [this]
    rw [if_neg (by simp)]
    exact ih _ _

/-! ## Quoting -/

theorem printByte_printable : ∀ c : UInt8, ∀ b ∈ printByte c, isprint b = true := by
  apply u8_all
  decide +kernel

theorem printByte_hex : ∀ c : UInt8, isprint c = true ∨
    (printByte c = [92, 120, lowHex (c >>> 4), lowHex (c &&& 15)] ∧
      lowHexValue (lowHex (c >>> 4)) = some (c >>> 4) ∧ lowHexValue (lowHex (c &&& 15)) = some (c &&& 15) ∧
      (16 : UInt8) * (c >>> 4) + (c &&& 15) = c) := by
  apply u8_all
  decide +kernel

theorem readQuoted_plain {c : UInt8} {s : Bytes} (h : c ≠ 92) : readQuoted (c :: s) = (readQuoted s).map (c :: ·) := by
  rw [readQuoted.eq_def]
  split
  · next e => simp at e
  · next e => exact absurd (List.cons.inj e).1 h
  · next e => exact absurd (List.cons.inj e).1 h
  · next e => rw [(List.cons.inj e).1, (List.cons.inj e).2]

theorem readQuoted_byte {c : UInt8} {s : Bytes} (h : c ≠ 92) :
    readQuoted (printByte c ++ s) = (readQuoted s).map (c :: ·) := by
  rcases printByte_hex c with hp | ⟨he, h1, h2, h3⟩
  · by_cases hq : c = 34
    · subst hq
      have : printByte 34 = [92, 34] := by decide +kernel
      rw [this]
      simp [readQuoted]
    · have : printByte c = [c] := by simp [printByte, hp, hq]
      rw [this]
      exact readQuoted_plain h
  · rw [he]
    simp only [List.cons_append, List.nil_append, readQuoted, h1, h2, h3]

theorem readQuoted_loop : ∀ {s : Bytes}, 92 ∉ s → readQuoted (printLoop s) = some s
  | [], _ => by simp [printLoop, readQuoted]
  | c :: s, h => by
    simp only [List.mem_cons, not_or] at h
    rw [printLoop, readQuoted_byte (Ne.symm h.1), readQuoted_loop h.2]
    rfl

end Verif.CStrings
