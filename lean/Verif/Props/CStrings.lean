import Verif.Lemmas.CStrings

/-!
# C72: replacing in a string, C73: writing a string in quotes
-/

namespace Verif.Props

open Verif.Spec Verif.CStrings

/-- The result is the string with every occurrence replaced, from the left, and nothing else is.  Missing: replacing the empty string,
for which it is false. -/
theorem C72_partial (s old new : Bytes) (h : old ≠ []) :
    ∃ t, stringReplace s old new = .ok t ∧ ∀ t', Replaced old new s t' ↔ t' = t := by
  obtain ⟨t, e, hr⟩ := stringReplace_spec (s := s) (new := new) h
  exact ⟨t, e, fun t' => ⟨fun h' => replaced_unique h hr h', fun h' => h' ▸ hr⟩⟩

example : stringReplace (lit "aaaa-aab") (lit "aa") (lit "a") = .ok (lit "aa-ab") := by decide +kernel
example : stringReplace (lit "/%a/%b") (lit "%b") (lit "%b%b") = .ok (lit "/%a/%b%b") := by decide +kernel

/-- To replace the empty string does not end: whatever the string, the loop goes on after any number of rounds. -/
theorem C72_counterexample (s new : Bytes) : strstr [] s = some 0 ∧ ∀ fuel, replaceLoop [] new fuel s [] = .fault .diverge :=
  ⟨by cases s <;> simp [strstr], fun fuel => replaceLoop_forever fuel s []⟩

example : stringReplace (lit "ab") [] (lit "c") = .fault .diverge := by decide +kernel

/-- What is written begins and ends with a quote and has only printable characters. -/
theorem C73_printable (s : Bytes) :
    ∃ t, printString s = [34] ++ t ++ [34] ∧ ∀ c ∈ printString s, 32 ≤ c ∧ c ≤ 126 := by
  refine ⟨_, rfl, ?_⟩
  have hp : ∀ (s : Bytes), ∀ c ∈ printLoop s, isprint c = true := by
    intro s
    induction s with
    | nil => simp [printLoop]
    | cons b s ih =>
      intro c hc
      rw [printLoop, List.mem_append] at hc
      exact hc.elim (printByte_printable b c) (ih c)
  have hi : ∀ c, isprint c = true → 32 ≤ c ∧ c ≤ 126 := by
    intro c hc
    simpa [isprint] using hc
  intro c hc
  simp only [printString, List.mem_append, List.mem_singleton] at hc
  rcases hc with (rfl | hc) | rfl
  · decide
  · exact hi c (hp s c hc)
  · decide

/-- The bytes can be read back from what stands between the quotes.  Missing: strings with a backslash, for which it is false. -/
theorem C73_read_partial (s : Bytes) (h : 92 ∉ s) : ∃ t, printString s = [34] ++ t ++ [34] ∧ readQuoted t = some s :=
  ⟨_, rfl, readQuoted_loop h⟩

example : printString (lit "a\"b" ++ [0, 10, 255]) = lit "\"a\\\"b\\x00\\x0a\\xff\"" := by decide +kernel

/-- A backslash is not escaped: a byte and the four characters that stand for it are written alike, so that nothing
can read the bytes back. -/
theorem C73_counterexample : ∃ s s' : Bytes, s ≠ s' ∧ printString s = printString s' := by
  refine ⟨[0], lit "\\x00", by decide +kernel, by decide +kernel⟩

end Verif.Props
