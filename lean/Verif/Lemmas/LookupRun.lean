import Verif.Lemmas.Offset
import Verif.Lemmas.Clock
import Verif.Model.LookupRun

/-!
# Runs of `dnstable_lookup`
-/

namespace Verif
open Spec

/-- `R E s o`: from the state `s`, with the offset `o`, the iterator has `E` left to deliver; with `t`, calls
have active time limits and may time out. -/
structure Serves (q : Query) (B : Built) (t : Bool) (R : List Entry → QSt B → Nat → Prop) : Prop where
  call : ∀ {E : List Entry} {s : QSt B} {w : World} {l : Limits}, R E s w.offset → (t = true → l.active = true) →
    (t = true → Timely ⟨l, w, (queryNext { q with lim := l } B s w).2.2, (queryNext { q with lim := l } B s w).1⟩) ∧
    ((t = true ∧ (queryNext { q with lim := l } B s w).1 = .timeout ∧
        R E (queryNext { q with lim := l } B s w).2.1 (queryNext { q with lim := l } B s w).2.2.offset) ∨
     (∃ e E', (queryNext { q with lim := l } B s w).1 = .entry e ∧ E = e :: E' ∧
        R E' (queryNext { q with lim := l } B s w).2.1 (queryNext { q with lim := l } B s w).2.2.offset) ∨
     ((queryNext { q with lim := l } B s w).1 = .failure ∧ E = []))

namespace TwinSet

/-- What is left to deliver, of the untimed query. -/
def Left (Z : TwinSet) {V : View} {ind : Option UInt8} (q : Query) (E : List Entry) (u : QSt (Z.bU V ind)) (o : Nat) : Prop :=
  Z.QI u ∧ ∀ v : World, v.offset = o → Del q (Z.bU V ind) u v E

theorem Left.step {Z : TwinSet} {V : View} {ind : Option UInt8} {q : Query} {E : List Entry}
    {u : QSt (Z.bU V ind)} {v : World} (h : Z.Left q E u v.offset) :
    let x := queryNext { q with lim := {} } (Z.bU V ind) u v
    (∃ e E', x.1 = .entry e ∧ E = e :: E' ∧ Z.Left q E' x.2.1 x.2.2.offset) ∨ (x.1 = .failure ∧ E = []) := by
  obtain ⟨hI, hd⟩ := h
  have hI' := (Z.call_fwd { q with lim := {} } u v hI).1
  rcases (hd v rfl).step with ⟨e, E', h1, h2, h3⟩ | ⟨h1, h2, -⟩
  · exact .inl ⟨e, E', h1, h2, hI', fun v' hv' k => Returns.congr (Z.run_steady q _ hI' hv'.symm) (h3 k)⟩
  · exact .inr ⟨h1, h2⟩

theorem serves_untimed (Z : TwinSet) {V : View} {ind : Option UInt8} (q : Query) :
    Serves q (Z.bU V ind) false (Z.Left q) where
  call := by
    intro E s w l hR _
    refine ⟨by simp, .inr ?_⟩
    obtain ⟨h1, h2, h3⟩ := Z.call_lims q l {} s hR.1 (v := w) (v' := w) rfl
    rw [h1, h2, h3]
    exact hR.step

theorem serves_timed (Z : TwinSet) {V : View} {ind : Option UInt8} (q : Query) :
    Serves q (Z.bT V ind) true (fun E s o => ∃ u, Z.QR s u ∧ Z.Left q E u o) where
  call := by
    intro E s w l ⟨u, hR, hI, hd⟩ hl
    obtain ⟨ht, h⟩ := Z.call_twin q l (hl rfl) w hR hI
    refine ⟨fun _ => ht, ?_⟩
    rcases h with ⟨hr, u', hR', hI', hv'⟩ | ⟨-, hv'⟩
    · refine .inl ⟨rfl, hr, u', hR', hI', fun v hv => ?_⟩
      obtain ⟨v2, h1, h2⟩ := hv' w rfl
      have := Del.head Z hI h2 (hd w rfl)
      exact fun k => Returns.congr (Z.run_steady q _ hI' (h1.trans hv.symm)) (this k)
    · obtain ⟨h1, h2, h3⟩ := hv' w rfl
      rcases Left.step (Z := Z) (q := q) (v := w) ⟨hI, hd⟩ with ⟨e, E', a, b, c⟩ | ⟨a, b⟩
      · exact .inr (.inl ⟨e, E', h1.trans a, b, _, h2, h3 ▸ c⟩)
      · exact .inr (.inr ⟨h1.trans a, b⟩)

end TwinSet

/-! ## Printing -/

/-- Everything printed, one entry after the other. -/
def printed (text : Entry → Bytes) (E : List Entry) : Bytes := (E.map text).flatten

theorem printed_snoc (text : Entry → Bytes) (E : List Entry) (e : Entry) :
    printed text (E ++ [e]) = printed text E ++ text e := by
  simp [printed]

/-- The entries `D` have been printed and counted. -/
def Printed (text : Entry → Bytes) {B : Built} (D : List Entry) (d : DumpSt B) : Prop :=
  d.out = printed text D ∧ d.count = D.length % 2 ^ 64

theorem Printed.snoc {text : Entry → Bytes} {B : Built} {D : List Entry} {d : DumpSt B} (h : Printed text D d)
    (e : Entry) (s : QSt B) (w : World) :
    Printed text (D ++ [e])
      { d with iter := s, world := w, count := (d.count + 1) % 2 ^ 64, out := d.out ++ text e } := by
  obtain ⟨h1, h2⟩ := h
  refine ⟨by rw [printed_snoc, ← h1], ?_⟩
  simp only [List.length_append, List.length_cons, List.length_nil, Nat.zero_add, h2]
  omega

/-- The deadline in force, against the timers of the command line. -/
structure TimersOk (T : CliTimers) (l : Limits) : Prop where
  noTimeout : l.doTimeout = false
  deadline : l.doDeadline = true
  only : T.interval.sec = 0 → l.deadline = T.deadline

theorem gettime_tick (w : World) : (gettime w).2.tick = w.tick + 1 := rfl

theorem statsReading_clock (F : CliFlags) (w : World) : (statsReading F w).clock = w.clock := by
  unfold statsReading; split <;> rfl

theorem statsReading_offset (F : CliFlags) (w : World) : (statsReading F w).offset = w.offset := by
  unfold statsReading; split <;> rfl

theorem statsReading_tick (F : CliFlags) (w : World) : w.tick ≤ (statsReading F w).tick := by
  unfold statsReading; split
  · exact Nat.le_succ _
  · exact Nat.le_refl _

theorem TimersOk.arm {T : CliTimers} {l : Limits} (h : TimersOk T l) (w : World) :
    armTimer l w = { w with deadline := l.deadline, armed := true } := by
  unfold armTimer Limits.active setDeadline
  simp [h.noTimeout, h.deadline]

/-- How a run with time limits that started in `d`, with `D` printed, stands after `n` calls. -/
def TimedOutcome (T : CliTimers) (text : Entry → Bytes) (A : List Entry) {B : Built} (n : Nat) (d : DumpSt B)
    (D : List Entry) : Dump B → Prop
  | .running d' => ∃ D' E' k, A = D' ++ E' ∧ Printed text D' d' ∧ n + D.length = D'.length + k ∧
      (k = 0 ∨ T.interval.sec ≠ 0 ∧ ∃ i, d.world.tick + k ≤ i ∧
        (T.deadline.sec ≠ 0 → timespecGe T.deadline (d.world.clock i) = true))
  | .ended r d' => (r = .failure ∧ Printed text A d') ∨
      (r = .timeout ∧ ∃ D' E', A = D' ++ E' ∧ Printed text D' d' ∧
        ∃ i, d.world.tick ≤ i ∧ i < d'.world.tick ∧
          if T.interval.sec = 0 then timespecGe (d.world.clock i) T.deadline = true
          else T.deadline.sec ≠ 0 ∧ timespecGe T.deadline (d.world.clock i) = false)
  | .fault _ => False

theorem TimedOutcome.entry {T : CliTimers} {text : Entry → Bytes} {A : List Entry} {B : Built} {n : Nat}
    {d d1 : DumpSt B} {D : List Entry} {e : Entry} (hc : d1.world.clock = d.world.clock)
    (ht : d.world.tick ≤ d1.world.tick) :
    ∀ {x : Dump B}, TimedOutcome T text A n d1 (D ++ [e]) x → TimedOutcome T text A (n + 1) d D x
  | .running d', ⟨D', E', k, h1, h2, h3, h4⟩ => by
    rw [hc] at h4
    refine ⟨D', E', k, h1, h2, ?_, ?_⟩
    · simp only [List.length_append, List.length_cons, List.length_nil] at h3; omega
    · rcases h4 with h4 | ⟨h4, i, h5, h6⟩
      · exact .inl h4
      · exact .inr ⟨h4, i, by omega, h6⟩
  | .ended r d', .inl h => .inl h
  | .ended r d', .inr ⟨h1, D', E', h2, h3, i, h4, h5, h6⟩ => by
    rw [hc] at h6
    exact .inr ⟨h1, D', E', h2, h3, i, by omega, h5, h6⟩

theorem TimedOutcome.pause {T : CliTimers} {text : Entry → Bytes} {A : List Entry} {B : Built} {n : Nat}
    {d d1 : DumpSt B} {D : List Entry} (hc : d1.world.clock = d.world.clock)
    (h0 : T.interval.sec ≠ 0) (ht : d.world.tick + 2 ≤ d1.world.tick)
    (hd : T.deadline.sec ≠ 0 → timespecGe T.deadline (d.world.clock (d1.world.tick - 1)) = true) :
    ∀ {x : Dump B}, TimedOutcome T text A n d1 D x → TimedOutcome T text A (n + 1) d D x
  | .running d', ⟨D', E', k, h1, h2, h3, h4⟩ => by
    rw [hc] at h4
    refine ⟨D', E', k + 1, h1, h2, by omega, .inr ⟨h0, ?_⟩⟩
    rcases h4 with rfl | ⟨-, i, h5, h6⟩
    · exact ⟨_, by omega, hd⟩
    · exact ⟨i, by omega, h6⟩
  | .ended r d', .inl h => .inl h
  | .ended r d', .inr ⟨h1, D', E', h2, h3, i, h4, h5, h6⟩ => by
    rw [hc] at h6
    exact .inr ⟨h1, D', E', h2, h3, i, by omega, h5, h6⟩

theorem nextDeadline_none {T : CliTimers} {t : Timespec} (h : nextDeadline T t = none) :
    T.deadline.sec ≠ 0 ∧ timespecGe T.deadline t = false := by
  unfold nextDeadline at h
  split at h
  · next hc => simpa using hc
  · cases h

theorem nextDeadline_some {T : CliTimers} {t x : Timespec} (h : nextDeadline T t = some x) :
    T.deadline.sec ≠ 0 → timespecGe T.deadline t = true := by
  unfold nextDeadline at h
  split at h
  · cases h
  · next hc => simpa using hc

/-- A run with time limits. -/
theorem dump_timed {F : CliFlags} {v : Printer} {T : CliTimers} {q : Query} {B : Built}
    {R : List Entry → QSt B → Nat → Prop} (hS : Serves q B true R) {text : Entry → Bytes} {A : List Entry}
    (ht : ∀ e ∈ A, printEntry F v e = .ok (text e)) (n : Nat) :
    ∀ {d : DumpSt B} {D E : List Entry}, A = D ++ E → Printed text D d → R E d.iter d.world.offset → TimersOk T d.lim →
      TimedOutcome T text A n d D (dumpLoop F v T q B n d) := by
  induction n with
  | zero => intro d D E hA hp _ _; exact ⟨D, E, 0, hA, hp, by omega, .inl rfl⟩
  | succ n ih =>
    intro d D E hA hp hR hT
    have hact : d.lim.active = true := by simp [Limits.active, hT.deadline]
    obtain ⟨htime, h⟩ := hS.call (l := d.lim) hR fun _ => hact
    obtain ⟨-, hck, htk, hex⟩ := htime rfl
    simp only [hT.arm] at hck htk hex
    rw [dumpLoop]
    clear htime
    revert h hck htk hex
    cases queryNext { q with lim := d.lim } B d.iter d.world with
    | mk r sw =>
      obtain ⟨s, w⟩ := sw
      intro h hck htk hex
      simp only at h hck htk hex
      rcases h with ⟨-, rfl, hR'⟩ | ⟨e, E', rfl, rfl, hR'⟩ | ⟨rfl, rfl⟩
      · have hck2 : (statsReading F w).clock = d.world.clock := (statsReading_clock F w).trans hck
        have htk2 := statsReading_tick F w
        rcases hex with ⟨-, i, hi1, hi2, hi3, -⟩ | ⟨hne, -⟩
        · simp only at hi2 hi3
          show TimedOutcome _ _ _ _ _ _ (if T.interval.sec = 0 then _ else _)
          by_cases h0 : T.interval.sec = 0
          · rw [if_pos h0]
            refine .inr ⟨rfl, D, E, hA, hp, i, hi2, ?_, ?_⟩
            · show i < (statsReading F w).tick
              omega
            · rw [if_pos h0, ← hT.only h0]; exact hi3
          · rw [if_neg h0]
            simp only
            cases hn : nextDeadline T (gettime (statsReading F w)).1 with
            | none =>
              refine .inr ⟨rfl, D, E, hA, hp, (statsReading F w).tick, by omega, Nat.lt_succ_self _, ?_⟩
              rw [if_neg h0, ← hck2]
              exact nextDeadline_none hn
            | some next =>
              refine TimedOutcome.pause hck2 h0 ?_ ?_ (ih hA hp ?_ ⟨hT.noTimeout, rfl, fun h => (h0 h).elim⟩)
              · show _ ≤ (statsReading F w).tick + 1
                omega
              · rw [← hck2]
                exact nextDeadline_some hn
              · show R E s (statsReading F w).offset
                rw [statsReading_offset]; exact hR'
        · exact (hne rfl).elim
      · show TimedOutcome _ _ _ _ _ _ (match printEntry F v e with | .ok t => _ | .fail => _ | .fault f => _)
        rw [ht e (by rw [hA]; simp)]
        exact TimedOutcome.entry hck htk (ih (by rw [hA]; simp) (hp.snoc e s w) hR' hT)
      · rw [List.append_nil] at hA
        subst hA
        exact .inl ⟨rfl, hp⟩

/-- The deadline in force is not after that of the command line. -/
structure Within (T : CliTimers) (l : Limits) : Prop where
  normal : Normal l.deadline
  le : ns l.deadline ≤ ns T.deadline

/-- Which clock readings are not after the deadline, in a run from `d` on. -/
def PromptOutcome (T : CliTimers) {B : Built} (d : DumpSt B) : Dump B → Prop
  | .running d' => ∀ i, d.world.tick ≤ i → i < d'.world.tick → ns (d.world.clock i) ≤ ns T.deadline
  | .ended _ d' => ∀ i, d.world.tick ≤ i → i + 3 < d'.world.tick → ns (d.world.clock i) ≤ ns T.deadline
  | .fault _ => False

theorem PromptOutcome.after {T : CliTimers} {B : Built} {d d1 : DumpSt B} (hc : d1.world.clock = d.world.clock)
    (h : ∀ i, d.world.tick ≤ i → i < d1.world.tick → ns (d.world.clock i) ≤ ns T.deadline) :
    ∀ {x : Dump B}, PromptOutcome T d1 x → PromptOutcome T d x
  | .running d', hx => fun i h1 h2 => by
    by_cases h3 : i < d1.world.tick
    · exact h i h1 h3
    · rw [← hc]; exact hx i (by omega) h2
  | .ended r d', hx => fun i h1 h2 => by
    by_cases h3 : i < d1.world.tick
    · exact h i h1 h3
    · rw [← hc]; exact hx i (by omega) h2

theorem nextDeadline_within {T : CliTimers} {t x : Timespec} (hd : T.deadline.sec ≠ 0) (hT : Normal T.deadline)
    (hi : Normal T.interval) (ht : Normal t) (h : nextDeadline T t = some x) :
    Normal x ∧ ns x ≤ ns T.deadline ∧ ns t ≤ ns T.deadline := by
  have h0 := (timespecGe_iff hT ht).1 (nextDeadline_some h hd)
  unfold nextDeadline at h
  split at h
  · cases h
  · simp only [Option.some.injEq] at h
    obtain ⟨n1, -⟩ := timespecAdd_normal hi ht
    split at h
    · subst h; exact ⟨hT, Int.le_refl _, h0⟩
    · next hc =>
      subst h
      refine ⟨n1, (timespecGe_iff hT n1).1 ?_, h0⟩
      simpa [hd] using hc

/-- On a clock that does not go back, a run stops at the first reading after the deadline. -/
theorem dump_prompt {F : CliFlags} {v : Printer} {T : CliTimers} {q : Query} {B : Built}
    {R : List Entry → QSt B → Nat → Prop} (hS : Serves q B true R) {text : Entry → Bytes}
    (hd : T.deadline.sec ≠ 0) (hTn : Normal T.deadline) (hi : Normal T.interval) (n : Nat) :
    ∀ {d : DumpSt B} {E : List Entry}, (∀ e ∈ E, printEntry F v e = .ok (text e)) → R E d.iter d.world.offset →
      TimersOk T d.lim → Within T d.lim → (∀ i, Normal (d.world.clock i)) →
      (∀ i j, i ≤ j → ns (d.world.clock i) ≤ ns (d.world.clock j)) →
      PromptOutcome T d (dumpLoop F v T q B n d) := by
  induction n with
  | zero => intro d E _ _ _ _ _ _; exact fun i h1 h2 => by omega
  | succ n ih =>
    intro d E ht hR hT hW hN hM
    have hact : d.lim.active = true := by simp [Limits.active, hT.deadline]
    obtain ⟨htime, h⟩ := hS.call (l := d.lim) hR fun _ => hact
    obtain ⟨-, hck, htk, hex⟩ := htime rfl
    simp only [hT.arm] at hck htk hex
    rw [dumpLoop]
    clear htime
    have calm : ∀ i, timespecGe (d.world.clock i) d.lim.deadline = false → ns (d.world.clock i) ≤ ns T.deadline := by
      intro i hi
      have := mt (timespecGe_iff (hN i) hW.normal).2 (by simp [hi])
      have := hW.le
      omega
    revert h hck htk hex
    cases queryNext { q with lim := d.lim } B d.iter d.world with
    | mk r sw =>
      obtain ⟨s, w⟩ := sw
      intro h hck htk hex
      simp only at h hck htk hex
      rcases h with ⟨-, rfl, hR'⟩ | ⟨e, E', rfl, rfl, hR'⟩ | ⟨rfl, rfl⟩
      · have hck2 : (statsReading F w).clock = d.world.clock := (statsReading_clock F w).trans hck
        have htk2 := statsReading_tick F w
        have htk3 : (statsReading F w).tick ≤ w.tick + 1 := by
          unfold statsReading; split
          · exact Nat.le_refl _
          · exact Nat.le_succ _
        rcases hex with ⟨-, j, hi1, hi2, hi3, hi4⟩ | ⟨hne, -⟩
        · simp only at hi1 hi2 hi3 hi4
          show PromptOutcome _ _ (if T.interval.sec = 0 then _ else _)
          by_cases h0 : T.interval.sec = 0
          · rw [if_pos h0]
            intro i h1 h2
            replace h2 : i + 3 < (statsReading F w).tick := h2
            exact calm i (hi4 i h1 (by omega))
          · rw [if_neg h0]
            simp only
            cases hn : nextDeadline T (gettime (statsReading F w)).1 with
            | none =>
              intro i h1 h2
              replace h2 : i + 3 < (statsReading F w).tick + 1 := h2
              exact calm i (hi4 i h1 (by omega))
            | some next =>
              have hNow : (gettime (statsReading F w)).1 = d.world.clock (statsReading F w).tick := by rw [← hck2]; rfl
              rw [hNow] at hn
              obtain ⟨g1, g2, g3⟩ := nextDeadline_within hd hTn hi (hN _) hn
              refine PromptOutcome.after hck2 ?_ (ih ht ?_ ⟨hT.noTimeout, rfl, fun h => (h0 h).elim⟩ ⟨g1, g2⟩ ?_ ?_)
              · intro i _ h2
                replace h2 : i < (statsReading F w).tick + 1 := h2
                exact Int.le_trans (hM i _ (by omega)) g3
              · show R E s (statsReading F w).offset
                rw [statsReading_offset]; exact hR'
              · intro i; show Normal ((statsReading F w).clock i); rw [hck2]; exact hN i
              · intro i j hij; show ns ((statsReading F w).clock i) ≤ ns ((statsReading F w).clock j); rw [hck2]; exact hM i j hij
        · exact (hne rfl).elim
      · rcases hex with ⟨h, -⟩ | ⟨-, hcalm⟩
        · cases h
        · show PromptOutcome _ _ (match printEntry F v e with | .ok t => _ | .fail => _ | .fault f => _)
          rw [ht e (by simp)]
          refine PromptOutcome.after hck (fun i h1 h2 => calm i (hcalm i h1 h2))
            (ih (fun x hx => ht x (List.mem_cons_of_mem _ hx)) hR' hT hW ?_ ?_)
          · intro i; show Normal (w.clock i); rw [hck]; exact hN i
          · intro i j hij; show ns (w.clock i) ≤ ns (w.clock j); rw [hck]; exact hM i j hij
      · rcases hex with ⟨h, -⟩ | ⟨-, hcalm⟩
        · cases h
        · intro i h1 h2
          replace h2 : i + 3 < (statsReading F w).tick := h2
          have htk3 : (statsReading F w).tick ≤ w.tick + 1 := by
            unfold statsReading; split
            · exact Nat.le_refl _
            · exact Nat.le_succ _
          exact calm i (hcalm i h1 (by omega))

/-- A run without time limits ends after all entries. -/
theorem dump_untimed {F : CliFlags} {v : Printer} {T : CliTimers} {q : Query} {B : Built}
    {R : List Entry → QSt B → Nat → Prop} (hS : Serves q B false R) {text : Entry → Bytes} {A : List Entry}
    (ht : ∀ e ∈ A, printEntry F v e = .ok (text e)) (n : Nat) :
    ∀ {d : DumpSt B} {D E : List Entry}, A = D ++ E → Printed text D d → R E d.iter d.world.offset →
      (n ≤ E.length ∧ ∃ d', dumpLoop F v T q B n d = .running d' ∧ Printed text (D ++ E.take n) d') ∨
      (E.length < n ∧ ∃ d', dumpLoop F v T q B n d = .ended .failure d' ∧ Printed text A d') := by
  induction n with
  | zero => intro d D E hA hp _; exact .inl ⟨Nat.zero_le _, d, rfl, by simpa using hp⟩
  | succ n ih =>
    intro d D E hA hp hR
    obtain ⟨-, h⟩ := hS.call (l := d.lim) hR (by simp)
    simp only [dumpLoop]
    revert h
    cases queryNext { q with lim := d.lim } B d.iter d.world with
    | mk r sw =>
      obtain ⟨s, w⟩ := sw
      intro h
      simp only at h
      rcases h with ⟨h, -⟩ | ⟨e, E', rfl, rfl, hR'⟩ | ⟨rfl, rfl⟩
      · cases h
      · simp only [ht e (by rw [hA]; simp)]
        rcases ih (by rw [hA]; simp) (hp.snoc e s w) hR' with ⟨h1, d', h2, h3⟩ | ⟨h1, d', h2, h3⟩
        · refine .inl ⟨by simpa using h1, d', h2, ?_⟩
          simpa using h3
        · exact .inr ⟨by simpa using h1, d', h2, h3⟩
      · rw [List.append_nil] at hA
        subst hA
        exact .inr ⟨by simp, _, rfl, hp⟩

/-! ## The time limits of the command line -/

theorem limitQuery_none (q : Query) (w : World) : limitQuery 0 0 q w = ({}, q, w) := rfl

/-- The timers and the world after `limitQuery`. -/
structure LimitedBy (timeout interval : Nat) (q : Query) (w : World) (x : CliTimers × Query × World) : Prop where
  timers : TimersOk x.1 x.2.1.lim
  query : x.2.1 = { q with lim := x.2.1.lim }
  clock : x.2.2.clock = w.clock
  offset : x.2.2.offset = w.offset
  tick : w.tick ≤ x.2.2.tick
  deadline : x.1.deadline =
    if timeout = 0 then ⟨0, 0⟩ else ⟨(w.clock w.tick).sec + timeout, (w.clock w.tick).nsec⟩
  interval : x.1.interval = ⟨interval, 0⟩

theorem limitQuery_spec {timeout interval : Nat} (h : timeout ≠ 0 ∨ interval ≠ 0) {q : Query} (hq : q.lim = {}) {w : World} :
    LimitedBy timeout interval q w (limitQuery timeout interval q w) := by
  unfold limitQuery startTimeout startInterval
  by_cases h1 : timeout = 0
  · have h2 : interval ≠ 0 := by omega
    subst h1
    simp only [ne_eq, not_true, h2, not_false_iff, gettime, Bool.true_or, decide_true, ↓reduceIte]
    exact ⟨⟨by simp [setDeadlineParam, hq], rfl, fun h => absurd h (by simpa using h2)⟩, by simp [setDeadlineParam], rfl, rfl,
      Nat.le_succ _, rfl, rfl⟩
  · by_cases h2 : interval = 0
    · subst h2
      simp only [ne_eq, h1, not_false_iff, if_true, gettime, not_true, if_false]
      exact ⟨⟨by simp [setDeadlineParam, hq], rfl, fun _ => rfl⟩, by simp [setDeadlineParam], rfl, rfl,
        Nat.le_succ _, by simp [h1], rfl⟩
    · simp only [ne_eq, h1, h2, not_false_iff, if_true, gettime]
      split
      · exact ⟨⟨by simp [setDeadlineParam, hq], rfl, fun h => absurd h (by simpa using h2)⟩, by simp [setDeadlineParam],
          rfl, rfl, by simp only; omega, by simp [h1], rfl⟩
      · exact ⟨⟨by simp [setDeadlineParam, hq], rfl, fun _ => rfl⟩, by simp [setDeadlineParam], rfl, rfl,
          by simp only; omega, by simp [h1], rfl⟩

/-- The deadline in force at the beginning. -/
theorem limitQuery_within {timeout interval : Nat} (h1 : timeout ≠ 0) (q : Query) {w : World}
    (hN : ∀ i, Normal (w.clock i)) (h0 : 0 ≤ (w.clock w.tick).sec) :
    Within (limitQuery timeout interval q w).1 (limitQuery timeout interval q w).2.1.lim ∧
    (limitQuery timeout interval q w).2.2.tick = w.tick + (if interval = 0 then 1 else 2) := by
  have hD : Normal ⟨(w.clock w.tick).sec + timeout, (w.clock w.tick).nsec⟩ := hN w.tick
  unfold limitQuery startTimeout startInterval
  by_cases h2 : interval = 0
  · subst h2
    simp only [ne_eq, h1, not_false_iff, if_true, gettime, not_true, if_false]
    exact ⟨⟨hD, Int.le_refl _⟩, trivial⟩
  · obtain ⟨n1, -⟩ := timespecAdd_normal (a := ⟨interval, 0⟩) (b := w.clock (w.tick + 1)) ⟨Int.le_refl _, by simp⟩ (hN _)
    simp only [ne_eq, h1, h2, not_false_iff, if_true, gettime, if_false]
    split
    · next hc =>
      refine ⟨⟨n1, ?_⟩, rfl⟩
      simp only [Bool.or_eq_true, decide_eq_true_eq, Bool.not_eq_true'] at hc
      rcases hc with hc | hc
      · omega
      · have := mt (timespecGe_iff n1 hD).2 (by simp [hc])
        show ns (timespecAdd _ _) ≤ _
        simp only
        omega
    · exact ⟨⟨hD, Int.le_refl _⟩, rfl⟩

theorem printEntry_stats (interval : Nat) (F : CliFlags) (v : Printer) (e : Entry) :
    printEntry (intervalStats interval F) v e = printEntry F v e := by
  unfold intervalStats
  split <;> rfl

end Verif
