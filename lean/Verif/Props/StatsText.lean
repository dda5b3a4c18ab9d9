import Verif.Lemmas.StatsText
import Verif.Props.LookupRun

/-!
# What statistics `dnstable_lookup` writes (C60)

`lookupErrors F v timeout interval q S p read found0 cnt0 n w` is what the program has written to the standard error
stream after `n` calls of `dnstable_iter_next` (see `lookupRun` in `Props.LookupRun`).  `read w'` are the counters of the
iterator in the world `w'`; `found0` and `cnt0` are the initial values of variables that the program passes to
`dnstable_iter_get_count` uninitialised.
-/

namespace Verif.Props
open Spec

/-- C60, variables.  For all the stages and categories that have names, whether there is a counter, and its value if
there is one, do not depend on what the variables of the caller held before. -/
theorem C60_defined (it : IterStats) {s c : Bytes} {i j : Nat} (hs : (i, s) ∈ stageNames) (hc : (j, c) ∈ categoryNames)
    (f f' : Bool) (n n' : Nat) :
    (iterGetCount (some it) i j f (some n)).found = (iterGetCount (some it) i j f' (some n')).found ∧
    ((iterGetCount (some it) i j f (some n)).found = true →
      (iterGetCount (some it) i j f (some n)).count = (iterGetCount (some it) i j f' (some n')).count) := by
  have hi : i < 10 := stages_lt (i, s) (by rw [stageLoop_names]; exact hs)
  have hj : j < 4 := categories_lt (j, c) (by rw [categoryLoop_names]; exact hc)
  obtain ⟨h1, h2⟩ := getCount_defined it hi hj f n
  obtain ⟨h3, h4⟩ := getCount_defined it hi hj f' n'
  refine ⟨h1.trans h3.symm, fun h => ?_⟩
  rw [h1] at h
  obtain ⟨k, hk⟩ := Option.isSome_iff_exists.1 h
  rw [h2 k hk, h4 k hk]

/-- C60, text.  With one `-s`, a table of the sums of the counters of every category; with more, a table of all
counters; then the number of entries and the time elapsed, to the nanosecond. -/
theorem C60_statistics {F : CliFlags} (hF : F.stats > 0) (it : IterStats) (found0 : Bool) (cnt0 : Nat) {start now : Timespec}
    (h1 : Normal start) (h2 : Normal now) (h3 : ns start ≤ ns now) (count : Nat) :
    Statistics (if F.stats > 1 then detailRows (reading it) else summaryRows (reading it)) count (ns now - ns start).toNat
      (statsText F it found0 cnt0 start now count) :=
  statsText_statistics hF it found0 cnt0 h1 h2 h3 count

theorem limitQuery_tick (timeout interval : Nat) (q : Query) (w : World) :
    (limitQuery timeout interval q w).2.2.tick =
      w.tick + (if timeout = 0 then 0 else 1) + (if interval = 0 then 0 else 1) ∧
    (limitQuery timeout interval q w).2.2.clock = w.clock := by
  unfold limitQuery startTimeout startInterval
  by_cases h1 : timeout = 0
  · by_cases h2 : interval = 0
    · simp [h1, h2]
    · subst h1
      simp only [ne_eq, not_true, h2, not_false_iff, gettime, if_true, if_false]
      split <;> exact ⟨rfl, rfl⟩
  · by_cases h2 : interval = 0
    · simp [h1, h2, gettime]
    · simp only [ne_eq, h1, h2, not_false_iff, gettime, if_true, if_false]
      split <;> exact ⟨rfl, rfl⟩

theorem limitQuery_normal {timeout interval : Nat} (h : timeout ≠ 0 ∨ interval ≠ 0) {q : Query} {w : World} (hc : ClockOk w) :
    Normal (limitQuery timeout interval q w).2.1.lim.deadline := by
  by_cases h1 : timeout = 0
  · have h2 : interval ≠ 0 := by omega
    subst h1
    obtain ⟨n1, -⟩ := timespecAdd_normal (a := ⟨interval, 0⟩) (b := w.clock w.tick) ⟨Int.le_refl _, by simp⟩ (hc _).1
    unfold limitQuery startTimeout startInterval
    simp only [ne_eq, not_true, h2, not_false_iff, gettime, Bool.true_or, decide_true, ↓reduceIte]
    exact n1
  · exact (limitQuery_within h1 q (fun i => (hc i).1) (hc _).2).1.normal

/-- The number of the clock reading at which the time starts to count. -/
def startTick (timeout interval : Nat) (w : World) : Nat :=
  w.tick + (if timeout = 0 then 0 else 1) + (if interval = 0 then 0 else 1)

/-- What is written for a block: nothing if there are no statistics to write. -/
def BlockText (stats : Nat) (read : World → IterStats) (c : Nat → Timespec) (t0 : Nat) (b : Interim) (text : Bytes) : Prop :=
  if stats > 0 then
    Statistics (statsRows stats (read b.world)) b.count (ns (c b.world.tick) - ns (c t0)).toNat text
  else text = []

/-- Two blocks, one after the other: there is an interval between, and if the second one is due to a time limit, it
comes at least this many seconds after the first, or when the time is over. -/
def BlockOrder (timeout interval : Nat) (w : World) (b b' : Interim) : Prop :=
  b.call < b'.call ∧ b.late = true ∧ interval ≠ 0 ∧ b.world.tick < b'.world.tick ∧
  (b'.late = true → ns (w.clock b.world.tick) + seconds interval ≤ ns (w.clock b'.world.tick) ∨
    timeout ≠ 0 ∧ ns (w.clock w.tick) + seconds timeout ≤ ns (w.clock b'.world.tick))

theorem aligned_map {α β : Type} {R : α → β → Prop} (f : α → β) : ∀ l : List α, (∀ a ∈ l, R a (f a)) → Aligned R l (l.map f)
  | [], _ => trivial
  | a :: l, h => ⟨h a (by simp), aligned_map f l fun x hx => h x (by simp [hx])⟩

/-- C60, when.  The standard error stream consists of blocks of statistics and, at the end, the last lines.  A block is
written after a call of `dnstable_iter_next` that delivered nothing: the state of the program before this call has the
number of entries the block shows (and has written these entries: C54); the counters and the clock are read after it.
After a block the program goes on only if the call timed out and `-i` was given.  Blocks due to time limits are at least
as many seconds apart as `-i` says, except the one at the limit of `-t`.  When the program ends, the last block has the
final count and the final counters. -/
theorem C60_errors {q : Query} (hq : q.lim = {}) (T Ti : Table) (sf sfi : View → Bytes → Bool) (rm : Option (List Src))
    (fill : Option Src) (p : Plan) (F : CliFlags) (v : Printer) (timeout interval : Nat) (read : World → IterStats) (found0 : Bool)
    (cnt0 n : Nat) {w : World} (hc : ClockOk w) (hm : ∀ i j, i ≤ j → ns (w.clock i) ≤ ns (w.clock j)) :
    let S : Sources := ⟨curM T sf, curM Ti sfi, rm, fill⟩
    ∃ (bs : List Interim) (texts : List Bytes),
      lookupErrors F v timeout interval q S p read found0 cnt0 n w =
        texts.flatten ++ lastLines F v (lookupRun F v timeout interval q S p n w) ∧
      Aligned (BlockText (if interval ≠ 0 ∧ F.stats = 0 then 1 else F.stats) read w.clock (startTick timeout interval w)) bs texts ∧
      (∀ b ∈ bs, b.call < n ∧
        (∃ d, lookupRun F v timeout interval q S p b.call w = .running d ∧ b.count = d.count ∧ Kept d.world b.world) ∧
        AfterBlock b.late (interval ≠ 0) (lookupRun F v timeout interval q S p (b.call + 1) w)) ∧
      bs.Pairwise (BlockOrder timeout interval w) ∧
      LastBlock bs (lookupRun F v timeout interval q S p n w) := by
  intro S
  obtain ⟨ht, hck⟩ := limitQuery_tick timeout interval q w
  have hS : ClockedSources S := ⟨clocked_cur _ _, clocked_cur _ _⟩
  let x := limitQuery timeout interval q w
  obtain ⟨c1, c2⟩ := clocked_assemble x.2.1 hS p
  obtain ⟨bs, h⟩ := moments_blocks (intervalStats interval F) v x.1 x.2.1 c1 c2 n
    { iter := (assemble x.2.1 S p).start, lim := x.2.1.lim, world := (gettime x.2.2).2 }
  have hclk : (gettime x.2.2).2.clock = w.clock := hck
  have hstats : (intervalStats interval F).stats = if interval ≠ 0 ∧ F.stats = 0 then 1 else F.stats := by
    unfold intervalStats
    by_cases h1 : interval = 0 <;> by_cases h2 : F.stats = 0 <;> simp [h1, h2]
  have hlast : ∀ {B : Built} (x : Dump B), lastLines (intervalStats interval F) v x = lastLines F v x := by
    intro B x
    unfold lastLines farewell intervalStats
    cases x with
    | ended r d => simp only; split <;> rfl
    | running d => rfl
    | fault f => rfl
  have hstart : (gettime x.2.2).1 = w.clock (startTick timeout interval w) := by
    show x.2.2.clock x.2.2.tick = _
    rw [show x.2.2.clock = w.clock from hck, show x.2.2.tick = _ from ht]; rfl
  refine ⟨bs, bs.map fun b => statsText (intervalStats interval F) (read b.world) found0 cnt0
    (w.clock (startTick timeout interval w)) (gettime b.world).1 b.count, ?_, ?_, ?_, ?_, h.last⟩
  · unfold lookupErrors
    simp only
    rw [h.moments, hlast]
    congr 1
    rw [List.flatMap_map, List.flatMap_def, ← hstart]
  · refine aligned_map _ _ fun b hb => ?_
    obtain ⟨k1, k2⟩ := (h.interim b hb).2
    have kt : startTick timeout interval w ≤ b.world.tick := by
      refine Nat.le_trans ?_ k2
      show _ ≤ x.2.2.tick + 1
      rw [show x.2.2.tick = startTick timeout interval w from ht]
      exact Nat.le_succ _
    have kc : b.world.clock = w.clock := k1.trans hclk
    unfold BlockText
    rw [← hstats]
    split
    · next hp =>
      have := statsText_statistics hp (read b.world) found0 cnt0 (hc (startTick timeout interval w)).1 (hc b.world.tick).1
        (hm _ _ kt) b.count
      show Statistics _ _ _ (statsText _ _ _ _ _ (b.world.clock b.world.tick) _)
      rw [kc]
      exact this
    · next hp =>
      unfold statsText
      rw [if_neg hp]
  · intro b hb
    obtain ⟨i1, i2, i3⟩ := (h.interim b hb).1
    refine ⟨i1, i2, ?_⟩
    have hi : x.1.interval.sec ≠ 0 → interval ≠ 0 := by
      intro hi h0
      subst h0
      exact hi (by show (limitQuery timeout 0 q w).1.interval.sec = 0
                   unfold limitQuery startTimeout startInterval
                   by_cases h1 : timeout = 0 <;> simp [h1])
    revert i3
    show AfterBlock _ _ (lookupRun F v timeout interval q S p (b.call + 1) w) → _
    cases lookupRun F v timeout interval q S p (b.call + 1) w with
    | running d => exact fun h => ⟨h.1, hi h.2⟩
    | ended r d => exact id
    | fault f => exact id
  · by_cases h0 : timeout ≠ 0 ∨ interval ≠ 0
    · have hL := limitQuery_spec h0 hq (w := w)
      have hTd : Normal x.1.deadline := by
        rw [hL.deadline]
        split
        · exact ⟨Int.le_refl _, by simp⟩
        · exact (hc w.tick).1
      have hTi : Normal x.1.interval := by rw [hL.interval]; exact ⟨Int.le_refl _, by simp⟩
      obtain ⟨-, g2⟩ := h.spaced hL.timers (limitQuery_normal h0 hc) hTd hTi (by rw [hclk]; exact fun i => (hc i).1)
        (by rw [hclk]; exact hm)
      refine (h.follows.and g2).imp ?_
      rintro b b' ⟨⟨f1, f2, f3, f4⟩, f5⟩
      have f5 : Spaced _ w.clock b b' := hclk ▸ f5
      refine ⟨f1, f2, ?_, f4, fun hb' => ?_⟩
      · intro hi; rw [hL.interval, hi] at f3; exact f3 rfl
      · rcases f5 hb' with f5 | ⟨f5, f6⟩
        · refine .inl ?_
          rw [hL.interval] at f5
          simp only [ns, seconds] at f5 ⊢
          omega
        · have ht0 : timeout ≠ 0 := by
            intro h; rw [hL.deadline, if_pos h] at f5; exact f5 rfl
          refine .inr ⟨ht0, ?_⟩
          rw [hL.deadline, if_neg ht0] at f6
          simp only [ns, seconds] at f6 ⊢
          omega
    · have h1 : timeout = 0 := by omega
      have h2 : interval = 0 := by omega
      refine h.follows.imp ?_
      rintro b b' ⟨-, -, f3, -⟩
      subst h1 h2
      exact (f3 rfl).elim

/-- C60, silence.  Without `-s` and `-i` only the last lines are written. -/
theorem C60_silent {F : CliFlags} (hF : F.stats = 0) (v : Printer) (timeout : Nat) (q : Query) (S : Sources) (p : Plan)
    (read : World → IterStats) (found0 : Bool) (cnt0 n : Nat) (w : World) :
    lookupErrors F v timeout 0 q S p read found0 cnt0 n w = lastLines F v (lookupRun F v timeout 0 q S p n w) := by
  have h : ∀ l : List StatsMoment, ∀ f : StatsMoment → Bytes, (∀ m, f m = []) → l.flatMap f = [] := by
    intro l f hf; induction l with
    | nil => rfl
    | cons a l ih => rw [List.flatMap_cons, hf, ih]; rfl
  unfold lookupErrors
  simp only
  rw [h _ _ fun m => ?_]
  · rfl
  · unfold statsText
    rw [if_neg (by show ¬ F.stats > 0; omega)]

/-! ## Examples -/

/-- What the program has written after `n` calls, about the A records below `com`, started in the world `w`. -/
def exErrors (F : CliFlags) (timeout interval n : Nat) (w : World) : Bytes :=
  let S := plainSources (curM (rowsOf exRrsets) fun _ _ => false)
  match initKind exLookup with
  | .ok p => lookupErrors F exPrinter timeout interval exLookup S p (iterStats exLookup S p 7 0) true 99 n w
  | _ => []

/-- With `-s`, all four RRsets; with `-ss -t 3`, one of them; with `-j -i 2`, two blocks in three calls. -/
example :
    exErrors { stats := 1 } 0 0 5 (exWorld 0) =
      ascii "\nfiltered : 1\nmerged   : 0\nseek     : 0\nfiles    : 7\n\nentries  : 4\nelapsed  : 1.000000000s\n;;; Dumped 4 entries.\n" ∧
    exErrors { stats := 2 } 3 0 5 (exWorld 0) =
      ascii "\nfileset merged  : 0\nfileset files   : 7\nrrtype filtered : 0\nrrtype seek     : 0\n\nentries         : 1\nelapsed         : 3.000000000s\n;;; timed out\n;;; Dumped 1 entries.\n" ∧
    exErrors { json := true } 12 2 3 (exWorld 0) =
      ascii "\nfiltered : 0\nmerged   : 0\nseek     : 0\nfiles    : 7\n\nentries  : 0\nelapsed  : 2.000000000s\n\nfiltered : 0\nmerged   : 0\nseek     : 0\nfiles    : 7\n\nentries  : 1\nelapsed  : 6.000000000s\n" ∧
    exErrors { json := true } 12 0 5 (exWorld 0) = [] := by
  refine ⟨?_, ?_, ?_, ?_⟩ <;> decide +kernel

/-- The hypotheses of `C60_errors` are met by these runs. -/
example (F : CliFlags) (timeout interval n : Nat) : ∃ p, initKind exLookup = .ok p ∧ ∃ bs texts,
    exErrors F timeout interval n (exWorld 0) = texts.flatten ++ lastLines F exPrinter
      (lookupRun F exPrinter timeout interval exLookup (plainSources (curM (rowsOf exRrsets) fun _ _ => false)) p n (exWorld 0)) ∧
    Aligned (BlockText (if interval ≠ 0 ∧ F.stats = 0 then 1 else F.stats)
      (iterStats exLookup (plainSources (curM (rowsOf exRrsets) fun _ _ => false)) p 7 0) (exWorld 0).clock
      (startTick timeout interval (exWorld 0))) bs texts := by
  obtain ⟨p, hp, -⟩ := C54_prints (q := exLookup) (by decide) rfl (by decide +kernel) (by decide +kernel) (fun _ _ => false)
    (fun _ _ => false) none none (exLookup_delivers fun _ _ => false) (F := { count := true }) (v := exPrinter) (text := fun _ => [])
    (fun x _ => C54_count rfl exPrinter x.entry) 0 0 rfl (exWorldClock 0)
  refine ⟨p, hp, ?_⟩
  obtain ⟨bs, texts, h1, h2, -⟩ := C60_errors (q := exLookup) rfl (rowsOf exRrsets) (rowsOf exRrsets) (fun _ _ => false) (fun _ _ => false)
    none none p F exPrinter timeout interval (iterStats exLookup (plainSources (curM (rowsOf exRrsets) fun _ _ => false)) p 7 0)
    true 99 n (exWorldClock 0) (fun i j hij => by simp only [exWorld, ns]; omega)
  refine ⟨bs, texts, ?_, h2⟩
  unfold exErrors
  rw [hp]
  exact h1

/-- A day, a minute and a nanosecond; three seconds on a clock whose nanoseconds go down. -/
example :
    statsText { stats := 1 } (iterStats exLookup (plainSources (curM [] fun _ _ => false)) {view := .pfx []} 0 0 (exWorld 0)) false 5
        ⟨100, 999999999⟩ ⟨86561, 0⟩ 18446744073709551615 =
      ascii "\nfiltered : 0\nmerged   : 0\nseek     : 0\nfiles    : 0\n\nentries  : 18446744073709551615\nelapsed  : 86460.000000001s\n" := by
  decide +kernel

end Verif.Props
