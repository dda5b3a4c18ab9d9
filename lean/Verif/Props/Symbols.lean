import Verif.Spec.Symbols
import Verif.Lemmas.Format

/-! # C42: symbolic names -/

namespace Verif.Props
open Verif Verif.Spec

private theorem typeLoop_iff (s : Bytes) : ∀ (tab : List (Bytes × Nat)),
    (tab.map Prod.fst).Nodup → ∀ t, typeLoop s tab = .ok t ↔ (s, t) ∈ tab
  | [], _, t => by simp [typeLoop]
  | (n, u) :: tab, hd, t => by
    simp only [List.map_cons, List.nodup_cons] at hd
    simp only [typeLoop, List.mem_cons, Prod.mk.injEq]
    by_cases e : s = n
    · subst e
      simp only [ne_eq, not_true_eq_false, if_false, Out.ok.injEq, true_and]
      constructor
      · exact fun h => .inl h.symm
      · rintro (h | h)
        · exact h.symm
        · exact absurd (List.mem_map_of_mem (f := Prod.fst) h) hd.1
    · simp only [ne_eq, e, not_false_eq_true, if_true, false_and, false_or]
      exact typeLoop_iff s tab hd.2 t

private theorem typeLoop_total (s : Bytes) : ∀ (tab : List (Bytes × Nat)),
    typeLoop s tab = .fail ∨ ∃ t, typeLoop s tab = .ok t
  | [] => .inl rfl
  | (n, u) :: tab => by
    simp only [typeLoop]; split
    · exact typeLoop_total s tab
    · exact .inr ⟨u, rfl⟩

/-- C42: an entry-type value has exactly its documented name, every other value has none; a string denotes
exactly the type it names, every other string is refused. -/
theorem C42_entry_types (t : Nat) (s : Bytes) :
    (entryTypeToString t = some s ↔ (t, s) ∈ entryTypeNames) ∧
    (entryTypeFromString s = .ok t ↔ (t, s) ∈ entryTypeNames) ∧
    ((∀ u, (u, s) ∉ entryTypeNames) → entryTypeFromString s = .fail) := by
  have h2 : ∀ t, entryTypeFromString s = .ok t ↔ (t, s) ∈ entryTypeNames := by
    intro t
    rw [entryTypeFromString, typeLoop_iff s _ (by decide +kernel)]
    simp only [entryTypes, entryTypeNames, List.mem_cons, Prod.mk.injEq, List.not_mem_nil, or_false]
    constructor <;> (rintro (⟨rfl, rfl⟩ | ⟨rfl, rfl⟩ | ⟨rfl, rfl⟩ | ⟨rfl, rfl⟩ | ⟨rfl, rfl⟩ | ⟨rfl, rfl⟩ | ⟨rfl, rfl⟩) <;> simp)
  refine ⟨?_, h2 t, fun h => ?_⟩
  · simp only [entryTypeToString, entryTypeNames, List.mem_cons, Prod.mk.injEq, List.not_mem_nil, or_false]
    repeat' split
    all_goals
      first
        | (subst_vars; simp [eq_comm]; done)
        | (simp; refine ⟨?_, ?_, ?_, ?_, ?_, ?_, ?_⟩ <;> (intro h; contradiction))
  · rcases typeLoop_total s entryTypes with e | ⟨u, e⟩
    · exact e
    · exact absurd ((h2 u).1 e) (h u)

example : entryTypeFromString (lit "rdata_name") = .ok 3 ∧ entryTypeToString 3 = some (lit "rdata_name")
    ∧ entryTypeFromString (lit "RDATA") = .fail ∧ entryTypeToString 4 = none := by decide +kernel

private theorem tolower_toNat : ∀ c : UInt8,
    (tolower c).toNat = if 65 ≤ c.toNat ∧ c.toNat ≤ 90 then c.toNat + 32 else c.toNat :=
  u8_all (by decide +kernel)

private theorem tolower_eq (c d : UInt8) : tolower c = tolower d ↔ CaseEq c d := by
  unfold CaseEq
  rw [← UInt8.toNat_inj, ← UInt8.toNat_inj, tolower_toNat, tolower_toNat]
  split <;> split <;> omega

theorem sameNoCase_iff : ∀ (s t : Bytes), sameNoCase s t = true ↔ SameText s t
  | [], [] => by simp [sameNoCase, SameText]
  | [], _ :: _ => by simp [sameNoCase, SameText]
  | _ :: _, [] => by simp [sameNoCase, SameText]
  | c :: s, d :: t => by
    have ih := sameNoCase_iff s t
    simp only [sameNoCase, beq_iff_eq] at ih
    simp only [sameNoCase, SameText, List.map_cons, beq_iff_eq, List.cons.injEq, tolower_eq, ih]

private theorem statLoop_ok (s : Bytes) : ∀ (tab : List Bytes) (k n : Nat), statLoop s tab k = .ok n →
    ∃ i t, n = k + i ∧ tab[i]? = some t ∧ SameText t s
  | [], k, n, h => by simp [statLoop] at h
  | t :: tab, k, n, h => by
    unfold statLoop at h
    split at h
    · next e => cases h; exact ⟨0, t, rfl, rfl, (sameNoCase_iff t s).1 e⟩
    · obtain ⟨i, u, h1, h2, h3⟩ := statLoop_ok s tab (k + 1) n h
      exact ⟨i + 1, u, by omega, h2, h3⟩

private theorem statLoop_fail (s : Bytes) : ∀ (tab : List Bytes) (k : Nat), (∀ t ∈ tab, ¬ SameText t s) →
    statLoop s tab k = .fail
  | [], k, _ => rfl
  | t :: tab, k, h => by
    unfold statLoop
    rw [if_neg fun e => h t (List.mem_cons_self ..) ((sameNoCase_iff t s).1 e)]
    exact statLoop_fail s tab (k + 1) fun u hu => h u (List.mem_cons_of_mem _ hu)

private theorem statLoop_total (s : Bytes) : ∀ (tab : List Bytes) (k : Nat),
    statLoop s tab k = .fail ∨ ∃ n, statLoop s tab k = .ok n
  | [], k => .inl rfl
  | t :: tab, k => by
    unfold statLoop; split
    · exact .inr ⟨k, rfl⟩
    · exact statLoop_total s tab (k + 1)

/-- Entries of the table that read alike are one entry. -/
private def Apart (tab : List Bytes) : Prop :=
  ∀ i j, i < tab.length → j < tab.length → sameNoCase (tab.getD i []) (tab.getD j []) = true → i = j

private theorem sameText_iff (s t : Bytes) : SameText s t ↔ s.map tolower = t.map tolower := by
  rw [← sameNoCase_iff, sameNoCase, beq_iff_eq]

private theorem statTable {tab : List Bytes} {names : List (Nat × Bytes)}
    (hn : ∀ n s, (n, s) ∈ names ↔ tab[n]? = some s) (ha : Apart tab) (hne : [] ∉ tab) :
    (∀ i s, statToStr tab i = some s ↔ ∃ n : Nat, i = n ∧ (n, s) ∈ names) ∧
    (∀ s n, strToStat tab s = .ok n ↔ ∃ s' t, s = some s' ∧ (n, t) ∈ names ∧ SameText t s') ∧
    (∀ s, (∀ s', s = some s' → ∀ n t, (n, t) ∈ names → ¬ SameText t s') → strToStat tab s = .fail) := by
  have e : ∀ s', strToStat tab (some s') = statLoop s' tab 0 := by
    rintro (_ | ⟨c, s'⟩)
    · rw [strToStat]
      refine (statLoop_fail _ _ _ fun t ht h => ?_).symm
      cases t with
      | nil => exact hne ht
      | cons _ _ => exact h
    · rfl
  refine ⟨fun i s => ?_, fun s n => ?_, fun s h => ?_⟩
  · unfold statToStr
    split
    · next h =>
      refine ⟨by simp, ?_⟩
      rintro ⟨n, rfl, h'⟩
      rw [hn, List.getElem?_eq_some_iff] at h'
      obtain ⟨h', -⟩ := h'
      omega
    · next h =>
      constructor
      · exact fun h' => ⟨i.toNat, by omega, (hn _ _).2 h'⟩
      · rintro ⟨n, rfl, h'⟩; exact (hn _ _).1 h'
  · constructor
    · intro h
      cases s with
      | none => simp [strToStat] at h
      | some s' =>
        rw [e] at h
        obtain ⟨i, t, h1, h2, h3⟩ := statLoop_ok s' tab 0 n h
        rw [Nat.zero_add] at h1
        subst h1
        exact ⟨s', t, rfl, (hn _ _).2 h2, h3⟩
    · rintro ⟨s', t, rfl, h1, h2⟩
      rw [e]
      rw [hn] at h1
      rcases statLoop_total s' tab 0 with h | ⟨m, h⟩
      · exfalso
        have : ∀ (tab : List Bytes) (k n : Nat), tab[n]? = some t → statLoop s' tab k ≠ .fail := by
          intro tab
          induction tab with
          | nil => intro k n h; simp at h
          | cons u tab ih =>
            intro k n h
            unfold statLoop
            split
            · simp
            · next hu =>
              cases n with
              | zero =>
                simp only [List.getElem?_cons_zero, Option.some.injEq] at h
                subst h
                exact absurd ((sameNoCase_iff u s').2 h2) hu
              | succ n => exact ih (k + 1) n (by simpa using h)
        exact this tab 0 n h1 h
      · obtain ⟨i, u, h3, h4, h5⟩ := statLoop_ok s' tab 0 m h
        rw [h, h3, Nat.zero_add]
        have hi := (List.getElem?_eq_some_iff.1 h4).1
        have hj := (List.getElem?_eq_some_iff.1 h1).1
        have : i = n := by
          refine ha i n hi hj ?_
          rw [List.getD_eq_getElem?_getD, List.getD_eq_getElem?_getD, h4, h1, sameNoCase_iff, sameText_iff]
          rw [sameText_iff] at h5 h2
          exact h5.trans h2.symm
        rw [this]
  · cases s with
    | none => rfl
    | some s' =>
      rw [e]
      refine statLoop_fail _ _ _ fun t ht => ?_
      obtain ⟨n, h1, h2⟩ := List.getElem_of_mem ht
      exact h s' rfl n t ((hn _ _).2 (List.getElem?_eq_some_iff.2 ⟨h1, h2⟩))

private theorem apart_of {tab : List Bytes}
    (h : ∀ i : Fin tab.length, ∀ j : Fin tab.length,
      sameNoCase (tab.getD i.1 []) (tab.getD j.1 []) = true → i.1 = j.1) : Apart tab :=
  fun i j hi hj => h ⟨i, hi⟩ ⟨j, hj⟩

/-- C42: a statistics stage has exactly its documented name and every other number (negative ones included)
has none; a string denotes exactly the stage whose name it is up to case, and every other string, as well as
`NULL`, is refused. -/
theorem C42_stages :
    (∀ i s, statToStr stageStrs i = some s ↔ ∃ n : Nat, i = n ∧ (n, s) ∈ stageNames) ∧
    (∀ s n, strToStat stageStrs s = .ok n ↔ ∃ s' t, s = some s' ∧ (n, t) ∈ stageNames ∧ SameText t s') ∧
    (∀ s, (∀ s', s = some s' → ∀ n t, (n, t) ∈ stageNames → ¬ SameText t s') →
      strToStat stageStrs s = .fail) := by
  refine statTable (fun n s => ?_) (apart_of (by decide +kernel)) (by decide +kernel)
  rcases n with _ | _ | _ | _ | _ | _ | _ | _ | _ | _ | n <;>
    simp [stageNames, stageStrs, eq_comm]

example : strToStat stageStrs (some (lit "Time Prefilter")) = .ok 4
    ∧ statToStr stageStrs 4 = some (lit "time prefilter")
    ∧ strToStat stageStrs (some (lit "time pre")) = .fail ∧ statToStr stageStrs (-1) = none
    ∧ statToStr stageStrs 10 = none := by decide +kernel

/-- C42: likewise for the statistics categories. -/
theorem C42_categories :
    (∀ i s, statToStr categoryStrs i = some s ↔ ∃ n : Nat, i = n ∧ (n, s) ∈ categoryNames) ∧
    (∀ s n, strToStat categoryStrs s = .ok n ↔
      ∃ s' t, s = some s' ∧ (n, t) ∈ categoryNames ∧ SameText t s') ∧
    (∀ s, (∀ s', s = some s' → ∀ n t, (n, t) ∈ categoryNames → ¬ SameText t s') →
      strToStat categoryStrs s = .fail) := by
  refine statTable (fun n s => ?_) (apart_of (by decide +kernel)) (by decide +kernel)
  rcases n with _ | _ | _ | _ | n <;> simp [categoryNames, categoryStrs, eq_comm]

example : strToStat categoryStrs (some (lit "SEEK")) = .ok 2 ∧ strToStat categoryStrs none = .fail
    ∧ strToStat categoryStrs (some []) = .fail := by decide +kernel

end Verif.Props
