import Verif.Spec.Command
import Verif.Props.Arguments
import Verif.Props.ParseTime
import Verif.Lemmas.Calendar

/-! # The parts of the command line -/

namespace Verif.Props
open Verif Verif.Spec

/-! ## Times -/

/-- A time argument of the kind C53 is about: a date in one of the four forms, or a short text that is none. -/
def OrdinaryTime (T : TimeLibs) (now : Nat) (s : Bytes) : Prop :=
  now < 2 ^ 63 - 1 ∧ ((∃ t : Stamp, StampText s t ∧ t.Valid ∧ t.year ≤ 9999) ∨ NoDate T s ∧ s.length ≤ 13)

theorem seconds_small {t : Stamp} (h : t.Valid) (hy : t.year ≤ 9999) : t.seconds < 2 ^ 63 := by
  have h1 := (day_in_year h).2
  have h2 := daysOfYears_mono (show t.year - 1970 + 1 ≤ 8030 by omega)
  rw [daysOfYears_9999] at h2
  obtain ⟨-, -, -, -, -, h3, h4, h5⟩ := h
  rw [seconds_eq]
  omega

theorem stampText_dash {s : Bytes} {t : Stamp} (h : StampText s t) : 45 ∈ s := by
  obtain ⟨i, hi, -⟩ := h
  have hd : 45 ∈ dateText t := by simp [dateText]
  match i with
  | 0 => cases hi; exact hd
  | 1 => cases hi; exact List.mem_append_left _ hd
  | 2 => cases hi; exact List.mem_append_left _ hd
  | 3 => cases hi; exact List.mem_append_left _ (List.mem_append_left _ hd)
  | i + 4 => simp [stampTexts] at hi

theorem OrdinaryTime.big {T : TimeLibs} {now : Nat} {s : Bytes} (h : OrdinaryTime T now s) {n : Nat} (hn : LengthText s n) :
    n < 2 ^ 63 := by
  rcases h.2 with ⟨t, ht, -⟩ | ⟨-, hl⟩
  · exact absurd (stampText_dash ht) (lengthText_noDash hn)
  · have h1 := lengthText_lt hn
    have h2 : 10 ^ s.length ≤ 10 ^ 13 := Nat.pow_le_pow_right (by omega) hl
    omega

theorem OrdinaryTime.small {T : TimeLibs} {now : Nat} {s : Bytes} (h : OrdinaryTime T now s) {v : Nat} (hv : Moment now s v) :
    v < 2 ^ 63 := by
  have h1 := h.1
  cases hv with
  | date _ hv hy => exact seconds_small hv hy
  | absolute hl => exact h.big hl
  | ago => omega
  | span => omega

/-- Ordinary times are understood as documented. -/
theorem OrdinaryTime.iff {T : TimeLibs} (hT : TimeLibsOk T) {now : Nat} {s : Bytes} (h : OrdinaryTime T now s) (v : Nat) :
    timeOption T now s = .ok v ↔ Moment now s v ∧ v ≠ 0 := by
  have h1 := h.1
  constructor
  · intro e
    rcases h.2 with ⟨t, ht, hv, hy⟩ | ⟨hn, -⟩
    · have hm : Moment now s t.seconds := .date ht hv hy
      unfold timeOption at e
      rw [parseTime_moment hT (by omega) hm (seconds_small hv hy), Out.ok_bind] at e
      by_cases h0 : t.seconds = 0
      · rw [if_pos h0] at e; cases e
      · rw [if_neg h0] at e; cases e; exact ⟨hm, h0⟩
    · exact C53_refused_partial h1 hn (fun n hn => h.big hn) e
  · rintro ⟨hm, h0⟩
    exact C53_understood hT (by omega) hm (h.small hm) h0

theorem OrdinaryTime.total {T : TimeLibs} (hT : TimeLibsOk T) {now : Nat} {s : Bytes} (h : OrdinaryTime T now s) (f : Fault) :
    timeOption T now s ≠ .fault f := by
  have h1 := h.1
  rcases h.2 with ⟨t, ht, hv, hy⟩ | ⟨-, hl⟩
  · unfold timeOption
    rw [parseTime_moment hT (by omega) (.date ht hv hy) (seconds_small hv hy), Out.ok_bind]
    split <;> simp
  · exact C53_short T now hl f

/-! ## Numbers -/

/-- No number in the text is beyond the range of an `int`. -/
def SmallNumbers (s : Bytes) : Prop := ∀ a ds b, s = a ++ ds ++ b → (∀ c ∈ ds, IsDigit c) → numval ds < 2 ^ 31

theorem positive_iff {s : Bytes} (h : SmallNumbers s) (n : Nat) : positiveArg s = .ok n ↔ Positive s n := by
  have key : ∀ x rest m, s = x ++ rest → LengthText x m → 0 < m → (∀ c t, rest = c :: t → ¬ IsDigit c) →
      positiveArg s = .ok m := by
    intro x rest m hs hl h0 hr
    have hm : m < 2 ^ 31 := by
      obtain ⟨ws, sign, ds, rfl, -, -, -, hd, rfl⟩ := hl
      exact h (ws ++ sign) ds rest (by rw [hs]) hd
    unfold positiveArg atoi
    rw [hs, strtoll_length hl hr, clampLL_small (by omega)]
    simp only
    have e : ((m : Int) % 2 ^ 32) = m := by omega
    rw [e, if_neg (by omega), if_neg (by omega)]
    simp
  constructor
  · intro e
    by_cases hp : 0 < (strtoll s).1
    · obtain ⟨x, m, hs, hl, h0, hc, hr⟩ := strtoll_pos hp
      have := key x _ m hs hl h0 hr
      rw [this] at e
      cases e
      exact ⟨x, _, hs, hl, h0, hr⟩
    · exfalso
      rcases strtoll_cases s with e0 | ⟨ws, sign, ds, rest, hs, hw, hsg, hn, hd, hr⟩
      · unfold positiveArg atoi at e
        rw [e0] at e
        exact absurd e (by simp)
      · have hb := h (ws ++ sign) ds rest (by rw [hs]) hd
        have e1 := strtoll_eq hw hsg hn hd hr
        rw [← hs] at e1
        have hv : (strtoll s).1 ≤ 0 ∧ -(2 ^ 31) < (strtoll s).1 := by
          refine ⟨by omega, ?_⟩
          rw [e1]
          simp only
          unfold clampLL
          split <;> (try split) <;> (split at * <;> omega)
        unfold positiveArg atoi at e
        simp only at e
        rw [if_pos] at e
        · cases e
        · split <;> omega
  · rintro ⟨x, rest, hs, hl, h0, hr⟩
    exact key x rest n hs hl h0 hr

theorem positive_total (s : Bytes) (f : Fault) : positiveArg s ≠ .fault f := by
  unfold positiveArg
  split <;> simp

/-! ## Options -/

/-- An option with an argument of the ordinary kind. -/
def OrdinaryOption (T : TimeLibs) (e : OptEvent) : Prop :=
  (e.ch ∈ lit "aAbB" → OrdinaryTime T e.now e.arg) ∧ (e.ch ∈ lit "itO" → SmallNumbers e.arg)

/-- The value of an option, `d` if it is not given. -/
def Val (R : OptEvent → Nat → Prop) (d : Nat) (opts : List OptEvent) (c : UInt8) (x : Nat) : Prop :=
  match lastOf opts c with
  | none => x = d
  | some e => R e x

/-- The meaning of a time option. -/
def TimeVal (e : OptEvent) (x : Nat) : Prop := Moment e.now e.arg x ∧ x ≠ 0

/-- The meaning of a number option. -/
def NumVal (e : OptEvent) (x : Nat) : Prop := Positive e.arg x

theorem lastOf_cons (e : OptEvent) (es : List OptEvent) (c : UInt8) :
    lastOf (e :: es) c = (lastOf es c).or (if e.ch = c then some e else none) := by
  unfold lastOf
  rw [List.reverse_cons, List.find?_append]
  congr 1
  by_cases h : e.ch = c <;> simp [h]

theorem lastOf_mem {es : List OptEvent} {c : UInt8} {e : OptEvent} (h : lastOf es c = some e) : e ∈ es ∧ e.ch = c := by
  unfold lastOf at h
  exact ⟨List.mem_reverse.1 (List.mem_of_find?_eq_some h), by simpa using List.find?_some h⟩

/-- The effect of one option on a variable. -/
def Sets (R : OptEvent → Nat → Prop) (e : OptEvent) (c : UInt8) (d x : Nat) : Prop :=
  if e.ch = c then R e x else x = d

theorem Val.cons' {R : OptEvent → Nat → Prop} {d m x : Nat} {e : OptEvent} {es : List OptEvent} {c : UInt8}
    (h2 : Val R m es c x) (h1 : Sets R e c d m) : Val R d (e :: es) c x := by
  unfold Val at h2 ⊢
  unfold Sets at h1
  rw [lastOf_cons]
  cases hl : lastOf es c with
  | some e' => rw [hl] at h2; simpa using h2
  | none =>
    rw [hl] at h2
    simp only at h2
    subst h2
    by_cases hc : e.ch = c
    · rw [if_pos hc] at h1; simpa [hc] using h1
    · rw [if_neg hc] at h1; simpa [hc] using h1

theorem Val.unique {R : OptEvent → Nat → Prop} {d x y : Nat} {es : List OptEvent} {c : UInt8}
    (hR : ∀ e ∈ es, e.ch = c → ∀ a b, R e a → R e b → a = b) (h1 : Val R d es c x) (h2 : Val R d es c y) : x = y := by
  unfold Val at h1 h2
  cases hl : lastOf es c with
  | none => rw [hl] at h1 h2; simp only at h1 h2; rw [h1, h2]
  | some e =>
    rw [hl] at h1 h2
    obtain ⟨hm, hc⟩ := lastOf_mem hl
    exact hR e hm hc _ _ h1 h2

/-- What options have done to the variables. -/
structure After (v : CmdVars) (es : List OptEvent) (v' : CmdVars) : Prop where
  firstAfter : Val TimeVal v.times.firstAfter es 97 v'.times.firstAfter
  lastAfter : Val TimeVal v.times.lastAfter es 65 v'.times.lastAfter
  lastBefore : Val TimeVal v.times.lastBefore es 98 v'.times.lastBefore
  firstBefore : Val TimeVal v.times.firstBefore es 66 v'.times.firstBefore
  strict : v'.strict = (v.strict || given es 99)
  caseSensitive : v'.caseSensitive = (v.caseSensitive || given es 67)
  interval : Val NumVal v.interval es 105 v'.interval
  timeout : Val NumVal v.timeout es 116 v'.timeout
  offset : Val NumVal v.offset es 79 v'.offset
  aggregate : v'.aggregate = (v.aggregate && !given es 117)
  json : v'.flags.json = (v.flags.json || given es 106)
  jsonRfc : v'.flags.jsonRfc = (v.flags.jsonRfc || given es 74)
  addRaw : v'.flags.addRaw = (v.flags.addRaw || given es 82)
  count : v'.flags.count = (v.flags.count || given es 110)
  stats : v'.flags.stats = v.flags.stats + es.countP (·.ch == 115)

theorem given_cons (e : OptEvent) (es : List OptEvent) (c : UInt8) : given (e :: es) c = (e.ch == c || given es c) := rfl

/-- The same for one option. -/
structure Step (v : CmdVars) (e : OptEvent) (v' : CmdVars) : Prop where
  firstAfter : Sets TimeVal e 97 v.times.firstAfter v'.times.firstAfter
  lastAfter : Sets TimeVal e 65 v.times.lastAfter v'.times.lastAfter
  lastBefore : Sets TimeVal e 98 v.times.lastBefore v'.times.lastBefore
  firstBefore : Sets TimeVal e 66 v.times.firstBefore v'.times.firstBefore
  strict : v'.strict = (v.strict || e.ch == 99)
  caseSensitive : v'.caseSensitive = (v.caseSensitive || e.ch == 67)
  interval : Sets NumVal e 105 v.interval v'.interval
  timeout : Sets NumVal e 116 v.timeout v'.timeout
  offset : Sets NumVal e 79 v.offset v'.offset
  aggregate : v'.aggregate = (v.aggregate && !(e.ch == 117))
  json : v'.flags.json = (v.flags.json || e.ch == 106)
  jsonRfc : v'.flags.jsonRfc = (v.flags.jsonRfc || e.ch == 74)
  addRaw : v'.flags.addRaw = (v.flags.addRaw || e.ch == 82)
  count : v'.flags.count = (v.flags.count || e.ch == 110)
  stats : v'.flags.stats = v.flags.stats + if e.ch == 115 then 1 else 0

theorem Step.after {v v1 v2 : CmdVars} {e : OptEvent} {es : List OptEvent} (h1 : Step v e v1) (h2 : After v1 es v2) :
    After v (e :: es) v2 where
  firstAfter := h2.firstAfter.cons' h1.firstAfter
  lastAfter := h2.lastAfter.cons' h1.lastAfter
  lastBefore := h2.lastBefore.cons' h1.lastBefore
  firstBefore := h2.firstBefore.cons' h1.firstBefore
  strict := by rw [h2.strict, h1.strict, given_cons, Bool.or_assoc]
  caseSensitive := by rw [h2.caseSensitive, h1.caseSensitive, given_cons, Bool.or_assoc]
  interval := h2.interval.cons' h1.interval
  timeout := h2.timeout.cons' h1.timeout
  offset := h2.offset.cons' h1.offset
  aggregate := by rw [h2.aggregate, h1.aggregate, given_cons, Bool.not_or, Bool.and_assoc]
  json := by rw [h2.json, h1.json, given_cons, Bool.or_assoc]
  jsonRfc := by rw [h2.jsonRfc, h1.jsonRfc, given_cons, Bool.or_assoc]
  addRaw := by rw [h2.addRaw, h1.addRaw, given_cons, Bool.or_assoc]
  count := by rw [h2.count, h1.count, given_cons, Bool.or_assoc]
  stats := by rw [h2.stats, h1.stats, List.countP_cons]; omega

theorem Step.time {v v' : CmdVars} {e : OptEvent} {t : Nat} (hR : TimeVal e t)
    (h : e.ch = 97 ∧ v' = { v with times := { v.times with firstAfter := t } } ∨
      e.ch = 65 ∧ v' = { v with times := { v.times with lastAfter := t } } ∨
      e.ch = 98 ∧ v' = { v with times := { v.times with lastBefore := t } } ∨
      e.ch = 66 ∧ v' = { v with times := { v.times with firstBefore := t } }) : Step v e v' := by
  rcases h with ⟨hc, rfl⟩ | ⟨hc, rfl⟩ | ⟨hc, rfl⟩ | ⟨hc, rfl⟩ <;> constructor <;> simp [Sets, hc, hR]

theorem Step.number {v v' : CmdVars} {e : OptEvent} {n : Nat} (hR : NumVal e n)
    (h : e.ch = 105 ∧ v' = { v with interval := n } ∨ e.ch = 116 ∧ v' = { v with timeout := n } ∨
      e.ch = 79 ∧ v' = { v with offset := n }) : Step v e v' := by
  rcases h with ⟨hc, rfl⟩ | ⟨hc, rfl⟩ | ⟨hc, rfl⟩ <;> constructor <;> simp [Sets, hc, hR]

theorem Step.flag {v v' : CmdVars} {e : OptEvent}
    (h : e.ch = 99 ∧ v' = { v with strict := true } ∨ e.ch = 67 ∧ v' = { v with caseSensitive := true } ∨
      e.ch = 106 ∧ v' = { v with flags := { v.flags with json := true } } ∨
      e.ch = 74 ∧ v' = { v with flags := { v.flags with jsonRfc := true } } ∨
      e.ch = 110 ∧ v' = { v with flags := { v.flags with count := true } } ∨
      e.ch = 82 ∧ v' = { v with flags := { v.flags with addRaw := true } } ∨
      e.ch = 115 ∧ v' = { v with flags := { v.flags with stats := v.flags.stats + 1 } } ∨
      e.ch = 117 ∧ v' = { v with aggregate := false }) : Step v e v' := by
  rcases h with ⟨hc, rfl⟩ | ⟨hc, rfl⟩ | ⟨hc, rfl⟩ | ⟨hc, rfl⟩ | ⟨hc, rfl⟩ | ⟨hc, rfl⟩ | ⟨hc, rfl⟩ | ⟨hc, rfl⟩ <;>
    constructor <;> simp [Sets, hc]

/-- One option: it is refused unless it is a proper one, and then has its effect. -/
theorem readOption_spec {T : TimeLibs} (hT : TimeLibsOk T) {e : OptEvent} (he : OrdinaryOption T e) (v : CmdVars) :
    (∃ v', readOption T v e = .ok v' ∧ ProperOption e ∧ Step v e v') ∨ readOption T v e = .fail ∧ ¬ ProperOption e := by
  have time : ∀ (g : Nat → CmdVars), e.ch ∈ lit "aAbB" → (∀ t, TimeVal e t → Step v e (g t)) →
      (∃ v', (timeOption T e.now e.arg >>= fun t => Out.ok (g t)) = .ok v' ∧ ProperOption e ∧ Step v e v') ∨
        (timeOption T e.now e.arg >>= fun t => Out.ok (g t)) = .fail ∧ ¬ ProperOption e := by
    intro g hc hg
    have ho := he.1 hc
    cases h : timeOption T e.now e.arg with
    | fault f => exact absurd h (ho.total hT f)
    | ok t =>
      have := (ho.iff hT t).1 h
      exact .inl ⟨g t, rfl, .inl ⟨hc, t, this⟩, hg t this⟩
    | fail =>
      refine .inr ⟨rfl, ?_⟩
      rintro (⟨-, t, ht⟩ | ⟨hc', -⟩ | hc')
      · rw [(ho.iff hT t).2 ht] at h; cases h
      · revert hc hc'; generalize e.ch = c; revert c; exact u8_all (by decide +kernel)
      · revert hc hc'; generalize e.ch = c; revert c; exact u8_all (by decide +kernel)
  have number : ∀ (g : Nat → CmdVars), e.ch ∈ lit "itO" → (∀ t, NumVal e t → Step v e (g t)) →
      (∃ v', (positiveArg e.arg >>= fun t => Out.ok (g t)) = .ok v' ∧ ProperOption e ∧ Step v e v') ∨
        (positiveArg e.arg >>= fun t => Out.ok (g t)) = .fail ∧ ¬ ProperOption e := by
    intro g hc hg
    have ho := he.2 hc
    cases h : positiveArg e.arg with
    | fault f => exact absurd h (positive_total _ f)
    | ok t =>
      have := (positive_iff ho t).1 h
      exact .inl ⟨g t, rfl, .inr (.inl ⟨hc, t, this⟩), hg t this⟩
    | fail =>
      refine .inr ⟨rfl, ?_⟩
      rintro (⟨hc', -⟩ | ⟨-, t, ht⟩ | hc')
      · revert hc hc'; generalize e.ch = c; revert c; exact u8_all (by decide +kernel)
      · rw [(positive_iff ho t).2 ht] at h; cases h
      · revert hc hc'; generalize e.ch = c; revert c; exact u8_all (by decide +kernel)
  have flag : ∀ g : CmdVars, e.ch ∈ lit "cCjJnRsu" → Step v e g →
      (∃ v', (Out.ok g : Out CmdVars) = .ok v' ∧ ProperOption e ∧ Step v e v') ∨
        (Out.ok g : Out CmdVars) = .fail ∧ ¬ ProperOption e :=
    fun g hc hg => .inl ⟨g, rfl, .inr (.inr hc), hg⟩
  unfold readOption
  by_cases h1 : e.ch = 97
  · rw [if_pos h1]; exact time _ (by rw [h1]; decide) fun t ht => Step.time ht (.inl ⟨h1, rfl⟩)
  rw [if_neg h1]
  by_cases h2 : e.ch = 65
  · rw [if_pos h2]; exact time _ (by rw [h2]; decide) fun t ht => Step.time ht (.inr (.inl ⟨h2, rfl⟩))
  rw [if_neg h2]
  by_cases h3 : e.ch = 98
  · rw [if_pos h3]; exact time _ (by rw [h3]; decide) fun t ht => Step.time ht (.inr (.inr (.inl ⟨h3, rfl⟩)))
  rw [if_neg h3]
  by_cases h4 : e.ch = 66
  · rw [if_pos h4]; exact time _ (by rw [h4]; decide) fun t ht => Step.time ht (.inr (.inr (.inr ⟨h4, rfl⟩)))
  rw [if_neg h4]
  by_cases h5 : e.ch = 99
  · rw [if_pos h5]; exact flag _ (by rw [h5]; decide) (Step.flag (by simp [h5]))
  rw [if_neg h5]
  by_cases h6 : e.ch = 67
  · rw [if_pos h6]; exact flag _ (by rw [h6]; decide) (Step.flag (by simp [h6]))
  rw [if_neg h6]
  by_cases h7 : e.ch = 105
  · rw [if_pos h7]; exact number _ (by rw [h7]; decide) fun t ht => Step.number ht (.inl ⟨h7, rfl⟩)
  rw [if_neg h7]
  by_cases h8 : e.ch = 106
  · rw [if_pos h8]; exact flag _ (by rw [h8]; decide) (Step.flag (by simp [h8]))
  rw [if_neg h8]
  by_cases h9 : e.ch = 74
  · rw [if_pos h9]; exact flag _ (by rw [h9]; decide) (Step.flag (by simp [h9]))
  rw [if_neg h9]
  by_cases h10 : e.ch = 110
  · rw [if_pos h10]; exact flag _ (by rw [h10]; decide) (Step.flag (by simp [h10]))
  rw [if_neg h10]
  by_cases h11 : e.ch = 82
  · rw [if_pos h11]; exact flag _ (by rw [h11]; decide) (Step.flag (by simp [h11]))
  rw [if_neg h11]
  by_cases h12 : e.ch = 115
  · rw [if_pos h12]; exact flag _ (by rw [h12]; decide) (Step.flag (by simp [h12]))
  rw [if_neg h12]
  by_cases h13 : e.ch = 116
  · rw [if_pos h13]; exact number _ (by rw [h13]; decide) fun t ht => Step.number ht (.inr (.inl ⟨h13, rfl⟩))
  rw [if_neg h13]
  by_cases h14 : e.ch = 117
  · rw [if_pos h14]; exact flag _ (by rw [h14]; decide) (Step.flag (by simp [h14]))
  rw [if_neg h14]
  by_cases h15 : e.ch = 79
  · rw [if_pos h15]; exact number _ (by rw [h15]; decide) fun t ht => Step.number ht (.inr (.inr ⟨h15, rfl⟩))
  rw [if_neg h15]
  refine .inr ⟨rfl, ?_⟩
  have e1 : lit "aAbB" = [97, 65, 98, 66] := by decide
  have e2 : lit "itO" = [105, 116, 79] := by decide
  have e3 : lit "cCjJnRsu" = [99, 67, 106, 74, 110, 82, 115, 117] := by decide
  rintro (⟨hc, -⟩ | ⟨hc, -⟩ | hc)
  · rw [e1] at hc; simp [h1, h2, h3, h4] at hc
  · rw [e2] at hc; simp [h7, h13, h15] at hc
  · rw [e3] at hc; simp [h5, h6, h8, h9, h10, h11, h12, h14] at hc

/-- All options. -/
theorem readOptions_spec {T : TimeLibs} (hT : TimeLibsOk T) : ∀ {es : List OptEvent}, (∀ e ∈ es, OrdinaryOption T e) →
    ∀ v : CmdVars, (∃ v', readOptions T v es = .ok v' ∧ (∀ e ∈ es, ProperOption e) ∧ After v es v') ∨
      readOptions T v es = .fail ∧ ¬ ∀ e ∈ es, ProperOption e := by
  intro es
  induction es with
  | nil =>
    intro _ v
    refine .inl ⟨v, rfl, by simp, ?_⟩
    constructor <;> simp [Val, lastOf, given]
  | cons e es ih =>
    intro he v
    unfold readOptions
    rcases readOption_spec hT (he e (by simp)) v with ⟨v1, h1, hp, hs⟩ | ⟨h1, hp⟩
    · rw [h1, Out.ok_bind]
      rcases ih (fun e' he' => he e' (by simp [he'])) v1 with ⟨v2, h2, hq, ha⟩ | ⟨h2, hq⟩
      · refine .inl ⟨v2, h2, ?_, hs.after ha⟩
        intro e' he'
        rcases List.mem_cons.1 he' with rfl | he'
        · exact hp
        · exact hq e' he'
      · exact .inr ⟨h2, fun h => hq fun e' he' => h e' (by simp [he'])⟩
    · rw [h1]
      exact .inr ⟨rfl, fun h => hp (h e (by simp))⟩

end Verif.Props
