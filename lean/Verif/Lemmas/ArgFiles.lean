import Verif.Spec.ArgFiles
import Verif.Lemmas.Argv

/-! Lemmas about files of arguments. -/

namespace Verif
open Spec

theorem cutLines_ne : ∀ t, cutLines t ≠ []
  | [] => by simp [cutLines]
  | b :: t => by
    rw [cutLines]
    split
    · simp
    · split <;> simp

/-- `fgets` gives the first line, when there is room for it. -/
theorem fgetsLine_cut : ∀ (t : Bytes) (n : Nat) (l : Bytes) (ls : List Bytes), cutLines t = l :: ls → l.length < n → 0 ∉ t →
    ((fgetsLine n t).1.takeWhile fun b => b != 10 && b != 0) = l ∧
    (cutLines (fgetsLine n t).2 = ls ∨ ((fgetsLine n t).2 = [] ∧ ls = [])) ∧ 0 ∉ (fgetsLine n t).2 ∧
      (t ≠ [] → (fgetsLine n t).2.length < t.length)
  | [], n, l, ls, h, hl, _ => by
    simp only [cutLines, List.cons.injEq] at h
    obtain ⟨rfl, rfl⟩ := h
    cases n with
    | zero => simp at hl
    | succ n => simp [fgetsLine]
  | b :: t, n, l, ls, h, hl, h0 => by
    simp only [List.mem_cons, not_or] at h0
    cases n with
    | zero => simp at hl
    | succ n =>
      rw [cutLines] at h
      by_cases hb : b = 10
      · rw [if_pos hb] at h
        simp only [List.cons.injEq] at h
        obtain ⟨rfl, rfl⟩ := h
        subst hb
        simp [fgetsLine, h0.2]
      · rw [if_neg hb] at h
        cases hc : cutLines t with
        | nil => exact absurd hc (cutLines_ne t)
        | cons l' ls' =>
          rw [hc] at h
          simp only [List.cons.injEq] at h
          obtain ⟨rfl, rfl⟩ := h
          rw [List.length_cons] at hl
          obtain ⟨i1, i2, i3, i4⟩ := fgetsLine_cut t n l' ls' hc (by omega) h0.2
          have hb' : (b == 10) = false := by simpa using hb
          have hb0 : b ≠ 0 := fun e => h0.1 e.symm
          rw [fgetsLine, hb']
          simp only [Bool.false_eq_true, if_false]
          refine ⟨?_, i2, i3, fun _ => ?_⟩
          · rw [List.takeWhile_cons]
            simp [hb, hb0, i1]
          · cases t with
            | nil => cases n <;> simp [fgetsLine]
            | cons c t => have := i4 (by simp); simp only [List.length_cons] at this ⊢; omega

theorem fileLines_text : ∀ (fuel : Nat) (t : Bytes), t.length ≤ fuel → 0 ∉ t → (∀ l ∈ cutLines t, l.length < 1023) →
    fileLines fuel t = fullLines t
  | 0, t, hf, _, _ => by
    have : t = [] := List.length_eq_zero_iff.1 (by omega)
    subst this
    simp [fileLines, fullLines, cutLines]
  | fuel + 1, [], _, _, _ => by simp [fileLines, fullLines, cutLines]
  | fuel + 1, b :: t, hf, h0, hl => by
    cases hc : cutLines (b :: t) with
    | nil => exact absurd hc (cutLines_ne _)
    | cons l ls =>
      obtain ⟨i1, i2, i3, i4⟩ := fgetsLine_cut (b :: t) 1023 l ls hc (hl l (by rw [hc]; simp)) h0
      have hr := i4 (by simp)
      have ih : fileLines fuel (fgetsLine 1023 (b :: t)).2 = ls.filter fun l => !l.isEmpty := by
        rw [fileLines_text fuel _ (by simp only [List.length_cons] at hr hf; omega) i3]
        · rcases i2 with i2 | ⟨i2, rfl⟩
          · rw [fullLines, i2]
          · rw [i2]; rfl
        · rcases i2 with i2 | ⟨i2, rfl⟩
          · rw [i2]; exact fun x hx => hl x (by rw [hc]; exact List.mem_cons_of_mem _ hx)
          · rw [i2]; simp [cutLines]
      rw [fileLines]
      · simp only [i1, ih]
        rw [fullLines, hc, List.filter_cons]
        cases l <;> simp
      · simp

theorem argLines_read {files : Bytes → Option Bytes} {path : Bytes} {ls : List Bytes} (h : argLines files path = some ls)
    (d : Nat) (s : ArgState) :
    fileArgs {} files (d + 1) s path = doList {} (fileArgs {} files d) false s ls ∧ lit "--" ∉ ls := by
  unfold argLines at h
  split at h
  · cases h
  · next hp =>
    split at h
    · next t ht =>
      split at h
      · next hc =>
        obtain ⟨h0, hl, hd⟩ := hc
        cases h
        refine ⟨?_, hd⟩
        have hp' : (path == lit "-") = false := by simpa using hp
        rw [fileArgs, hp', ht]
        simp only [Bool.false_eq_true, if_false]
        rw [fileLines_text _ _ (Nat.le_refl _) h0 hl]
      · cases h
    · cases h

theorem commandWords_append : ∀ (ls as : List Bytes), lit "--" ∉ ls →
    commandWords false (ls ++ as) = commandWords false ls ++ commandWords false as
  | [], as, _ => rfl
  | a :: ls, as, h => by
    simp only [List.mem_cons, not_or] at h
    have ha : (a == lit "--") = false := by simpa using fun e => h.1 e.symm
    simp only [List.cons_append, commandWords, ha, Bool.and_false, Bool.false_eq_true, if_false]
    rw [commandWords_append ls as h.2, List.append_assoc]

theorem endsWith_bind {room : Nat} {stdin : Option Bytes} {ws new new' : List DumpWord} {r : ArgM ArgState}
    (h : EndsWith room stdin ws new r) {k : ArgState → ArgM ArgState}
    (hk : ∀ q, r = .ok (stateOf ⟨room, q⟩ stdin (ws ++ new)) →
      EndsWith room stdin (ws ++ new) new' (k (stateOf ⟨room, q⟩ stdin (ws ++ new)))) :
    EndsWith room stdin ws (new ++ new') (r >>= k) := by
  rcases h with ⟨h, rfl⟩ | ⟨h, q, e⟩
  · exact .inl ⟨List.mem_append.2 (.inl h), rfl⟩
  · subst e
    rcases hk q rfl with ⟨h', e⟩ | ⟨h', q', e⟩
    · exact .inl ⟨List.mem_append.2 (.inr h'), e⟩
    · exact .inr ⟨by simp [h, h'], q', by rw [← List.append_assoc]; exact e⟩

theorem longOption_file (file : ArgState → Bytes → ArgM ArgState) (room : Desk) (stdin : Option Bytes) (ws : List DumpWord)
    (a : Bytes) (v : Option Bytes) : splitValue a = (lit "--argv-file", v) →
    longOption {} file (stateOf room stdin ws) a =
      match v with
      | some path => file (stateOf room stdin ws) path
      | none => enqueue (stateOf room stdin ws) none := by
  intro ha
  unfold longOption
  rw [cutEquals_split, ha]
  have hl : longMatches (stateOf room stdin ws).grid (lit "argv-file") = [] :=
    (longMatches_list _ _).trans ((longMatches_dump _).trans (by decide +kernel))
  have hd : (lit "--argv-file").drop 2 = lit "argv-file" := by decide +kernel
  simp only [hd]
  rw [hl]
  have h1 : (lit "argv-file").isEmpty = false := by decide +kernel
  have h2 : (lit "argv-file").isPrefixOf (lit "argv-file") = true := by decide +kernel
  rw [h1, h2]
  rfl

theorem splitValue_file (p : Bytes) : splitValue (lit "--argv-file=" ++ p) = (lit "--argv-file", some p) := rfl

theorem argFileOf_eq {a p : Bytes} (h : argFileOf a = some p) : a = lit "--argv-file=" ++ p := by
  unfold argFileOf at h
  split at h
  · next hp =>
    obtain ⟨t, rfl⟩ := List.isPrefixOf_iff_prefix.1 hp
    cases h
    congr 1
  · cases h

/-- The queue has not grown. -/
theorem runWords_queue {room : Nat} {q q' : List (Option Nat)} {stdin : Option Bytes} {ws new : List DumpWord}
    (h : runWords ⟨room, q⟩ stdin ws new = .ok (stateOf ⟨room, q'⟩ stdin (ws ++ new))) : q' = q := by
  unfold runWords at h
  split at h
  · cases h
  · exact (congrArg ArgState.queue (Except.ok.inj h)).symm

theorem doList_spelled (files : Bytes → Option Bytes) (d room : Nat) (stdin : Option Bytes) :
    ∀ (m : Nat) (as as' : List Bytes) (ws : List DumpWord) (q : List (Option Nat)), as.length ≤ m → spelledOut files as = some as' →
      q.length + as.length ≤ room → (∀ w ∈ commandWords false as', w.usual = true) →
      EndsWith room stdin ws (commandWords false as')
        (doList {} (fileArgs {} files (d + 1)) false (stateOf ⟨room, q⟩ stdin ws) as) := by
  -- the lines of a file, then the rest
  have lines : ∀ (p : Bytes) (ls : List Bytes) (q : List (Option Nat)) (ws : List DumpWord) (new : List DumpWord)
      (k : ArgState → ArgM ArgState), argLines files p = some ls → (∀ w ∈ commandWords false ls, w.usual = true) →
      (∀ ws, EndsWith room stdin ws new (k (stateOf ⟨room, q⟩ stdin ws))) →
      EndsWith room stdin ws (commandWords false ls ++ new)
        (fileArgs {} files (d + 1) (stateOf ⟨room, q⟩ stdin ws) p >>= k) := by
    intro p ls q ws new k hp hu hk
    rw [(argLines_read hp d _).1, doList_words _ _ _ _ _ _ hu]
    refine endsWith_bind (endsWith_run _ _ _ _ _) fun q' e => ?_
    rw [runWords_queue e]
    exact hk _
  -- an argument that is not spelled out
  have plain : ∀ (a : Bytes) (as as' : List Bytes) (ws : List DumpWord) (q : List (Option Nat)), a ≠ lit "--" →
      (∀ w ∈ commandWords false (a :: as'), w.usual = true) →
      (∀ ws, EndsWith room stdin ws (commandWords false as')
        (doList {} (fileArgs {} files (d + 1)) false (stateOf ⟨room, q⟩ stdin ws) as)) →
      EndsWith room stdin ws (commandWords false (a :: as'))
        (doList {} (fileArgs {} files (d + 1)) false (stateOf ⟨room, q⟩ stdin ws) (a :: as)) := by
    intro a as as' ws q ha hu ih
    have ha' : (a == lit "--") = false := by simpa using ha
    simp only [commandWords, ha', Bool.and_false, Bool.false_eq_true, if_false] at hu ⊢
    unfold doList
    rw [if_neg (by simp [ha'])]
    rw [argWords_step _ _ _ _ _ _ fun w hw => hu w (List.mem_append.2 (.inl hw))]
    refine endsWith_bind (endsWith_run _ _ _ _ _) fun q' e => ?_
    rw [runWords_queue e]
    exact ih _
  -- `--argv-file=PATH`
  have joined : ∀ (a p : Bytes) (as : List Bytes) (s : ArgState), argFileOf a = some p →
      ∀ (ws : List DumpWord) (q : List (Option Nat)), s = stateOf ⟨room, q⟩ stdin ws →
      doList {} (fileArgs {} files (d + 1)) false s (a :: as) =
        (fileArgs {} files (d + 1) s p >>= fun s => doList {} (fileArgs {} files (d + 1)) false s as) := by
    intro a p as s hp ws q hs
    have := argFileOf_eq hp
    subst this hs
    have h1 : ((lit "--argv-file=" ++ p) == lit "--") = false := rfl
    have h2 : (lit "--").isPrefixOf (lit "--argv-file=" ++ p) = true := rfl
    conv => lhs; unfold doList
    rw [h1, h2]
    simp only [Bool.false_and, Bool.false_eq_true, if_false, Bool.not_false, Bool.and_self, if_true]
    rw [longOption_file _ _ _ _ _ _ (splitValue_file p)]
  intro m
  induction m with
  | zero =>
    intro as as' ws q hm h _ hu
    have : as = [] := List.length_eq_zero_iff.1 (by omega)
    subst this
    cases h
    exact .inr ⟨by simp [commandWords], q, by simp [doList, commandWords]⟩
  | succ m ih =>
    intro as as' ws q hm h hq hu
    match as, h with
    | [], h =>
      cases h
      exact .inr ⟨by simp [commandWords], q, by simp [doList, commandWords]⟩
    | [a], h =>
      rw [spelledOut] at h
      cases hp : argFileOf a with
      | some p =>
        rw [hp] at h
        rw [joined a p [] _ hp ws q rfl]
        have := lines p as' q ws [] (fun s => doList {} (fileArgs {} files (d + 1)) false s []) h hu fun ws =>
          .inr ⟨by simp, q, by simp [doList]⟩
        rwa [List.append_nil] at this
      | none =>
        rw [hp] at h
        simp only at h
        split at h
        · cases h
        · cases h
          by_cases ha : a = lit "--"
          · subst ha
            exact .inr ⟨by simp [commandWords], q, by simp [doList, commandWords]⟩
          · exact plain a [] [] ws q ha hu fun ws => .inr ⟨by simp [commandWords], q, by simp [doList, commandWords]⟩
    | a :: p :: as, h =>
      rw [spelledOut] at h
      simp only [List.length_cons] at hm hq
      split at h
      · cases h
        rw [doList_words _ _ _ _ _ _ hu]
        exact endsWith_run _ _ _ _ _
      · next ha =>
        split at h
        · next hf =>
          subst hf
          split at h
          · cases h
          · next hd =>
            cases hls : argLines files p with
            | none => rw [hls] at h; cases h
            | some ls =>
              cases hr : spelledOut files as with
              | none => rw [hls, hr] at h; cases h
              | some r =>
                rw [hls, hr] at h
                cases h
                have hdd := (argLines_read hls d (stateOf ⟨room, q⟩ stdin ws)).2
                rw [commandWords_append ls r hdd] at hu ⊢
                have e1 : (lit "--argv-file" == lit "--") = false := rfl
                have e2 : (lit "--").isPrefixOf (lit "--argv-file") = true := rfl
                conv => arg 5; unfold doList
                rw [e1, e2]
                simp only [Bool.false_and, Bool.false_eq_true, if_false, Bool.not_false, Bool.and_self, if_true]
                rw [longOption_file _ _ _ _ _ none rfl]
                simp only [enqueue]
                have hlt : (stateOf ⟨room, q⟩ stdin ws).queue.length < (stateOf ⟨room, q⟩ stdin ws).room := by
                  show q.length < room; omega
                rw [if_pos hlt]
                show EndsWith _ _ _ _ (doList _ _ _ _ (p :: as))
                unfold doList
                have e3 : (p == lit "--") = false := by
                  have : p ≠ lit "--" := by rintro rfl; exact hd rfl
                  simpa using this
                have e4 : (lit "--").isPrefixOf p = false := by
                  cases hh : (lit "--").isPrefixOf p with
                  | false => rfl
                  | true =>
                    obtain ⟨t, rfl⟩ := List.isPrefixOf_iff_prefix.1 hh
                    exact absurd rfl hd
                have e5 : (lit "-").isPrefixOf p = false := Bool.eq_false_iff.2 hd
                rw [e3, e4, e5]
                simp only [Bool.false_and, Bool.false_eq_true, if_false, Bool.and_false]
                have hpw : plainWord (fileArgs {} files (d + 1))
                    { stateOf ⟨room, q⟩ stdin ws with queue := (stateOf ⟨room, q⟩ stdin ws).queue ++ [none] } p =
                    fileArgs {} files (d + 1) (stateOf ⟨room, q ++ [none]⟩ stdin ws) p := by
                  unfold plainWord
                  have : (q ++ [none])[q.length]? = some none := by simp
                  show (match (q ++ [none])[q.length]? with | some p' => _ | none => _) = _
                  rw [this]
                  show fileArgs _ _ _ _ _ = _
                  congr 1
                  simp [stateOf, ArgState.at]
                rw [hpw]
                exact lines p ls (q ++ [none]) ws _ _ hls (fun w hw => hu w (List.mem_append.2 (.inl hw))) fun ws =>
                  ih as r ws (q ++ [none]) (by omega) hr (by simp; omega) fun w hw => hu w (List.mem_append.2 (.inr hw))
        · next hf =>
          cases hp : argFileOf a with
          | some p' =>
            rw [hp] at h
            dsimp only at h
            cases hls : argLines files p' with
            | none => rw [hls] at h; cases h
            | some ls =>
              cases hr : spelledOut files (p :: as) with
              | none => rw [hls, hr] at h; cases h
              | some r =>
                rw [hls, hr] at h
                cases h
                have hdd := (argLines_read hls d (stateOf ⟨room, q⟩ stdin ws)).2
                rw [commandWords_append ls r hdd] at hu ⊢
                rw [joined a p' (p :: as) _ hp ws q rfl]
                exact lines p' ls q ws _ _ hls (fun w hw => hu w (List.mem_append.2 (.inl hw))) fun ws =>
                  ih (p :: as) r ws q (by simp; omega) hr (by simp; omega) fun w hw => hu w (List.mem_append.2 (.inr hw))
          | none =>
            rw [hp] at h
            dsimp only at h
            cases hr : spelledOut files (p :: as) with
            | none => rw [hr] at h; cases h
            | some r =>
              rw [hr] at h
              cases h
              refine plain a (p :: as) r ws q ha hu fun ws =>
                ih (p :: as) r ws q (by simp; omega) hr (by simp; omega) fun w hw => hu w ?_
              have ha' : (a == lit "--") = false := by simpa using ha
              simp only [commandWords, ha', Bool.and_false, Bool.false_eq_true, if_false]
              exact List.mem_append.2 (.inr hw)

end Verif
