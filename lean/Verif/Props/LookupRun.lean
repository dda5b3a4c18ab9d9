import Verif.Lemmas.LookupRun
import Verif.Lemmas.Visible
import Verif.Spec.LookupRun
import Verif.Props.TextForm
import Verif.Props.Rrset
import Verif.Props.Timeouts

/-!
# What `dnstable_lookup` prints (C54)

`lookupRun F v timeout interval q S p n w` is the program after `n` calls of `dnstable_iter_next`, started in the
world `w` (whose clock readings are numbered from `w.tick` on), with the options `-t timeout` and `-i interval`, 0
standing for an absent option.
-/

namespace Verif.Props
open Spec

/-- What a run shows of the records `xs`, `Ok` being what is to be printed for a list of them: at any time, some of
them from the first one on; at the end, all of them, or, if a clock reading has come `timeout` seconds after the first
one, maybe not all.  The count is that of the records printed. -/
def Answered (timeout : Nat) (Ok : List Rec → Bytes → Prop) (xs : List Rec) (w : World) {B : Built} : Dump B → Prop
  | .running d => ∃ k ≤ xs.length, Ok (xs.take k) d.out ∧ d.count = k % 2 ^ 64
  | .ended r d =>
    (r = .failure ∧ Ok xs d.out ∧ d.count = xs.length % 2 ^ 64) ∨
    (r = .timeout ∧ timeout ≠ 0 ∧
      (∃ i, w.tick < i ∧ i < d.world.tick ∧ ns (w.clock w.tick) + seconds timeout ≤ ns (w.clock i)) ∧
      ∃ k ≤ xs.length, Ok (xs.take k) d.out ∧ d.count = k % 2 ^ 64)
  | .fault _ => False

theorem Answered.mono {timeout : Nat} {Ok Ok' : List Rec → Bytes → Prop} {xs : List Rec} {w : World} {B : Built}
    (h : ∀ ys s, (∀ x ∈ ys, x ∈ xs) → Ok ys s → Ok' ys s) :
    ∀ {x : Dump B}, Answered timeout Ok xs w x → Answered timeout Ok' xs w x
  | .running _, ⟨k, h1, h2, h3⟩ => ⟨k, h1, h _ _ (fun _ => List.mem_of_mem_take) h2, h3⟩
  | .ended _ _, .inl ⟨h1, h2, h3⟩ => .inl ⟨h1, h _ _ (fun _ => id) h2, h3⟩
  | .ended _ _, .inr ⟨h1, h2, h3, k, h4, h5, h6⟩ =>
    .inr ⟨h1, h2, h3, k, h4, h _ _ (fun _ => List.mem_of_mem_take) h5, h6⟩

/-- What is assumed of the clock: readings are normalised and not negative. -/
def ClockOk (w : World) : Prop := ∀ i, Normal (w.clock i) ∧ 0 ≤ (w.clock i).sec

theorem flatMap_entry {text : Entry → Bytes} (xs : List Rec) :
    printed text (xs.map Rec.entry) = xs.flatMap fun x => text x.entry := by
  simp [printed, List.flatMap_def, List.map_map, Function.comp_def]

theorem split_take {α : Type} {A D E : List α} (h : A = D ++ E) : D = A.take D.length ∧ D.length ≤ A.length := by
  subst h; simp

theorem deadline_ok {w : World} {timeout : Nat} (hc : ClockOk w) (h : timeout ≠ 0) :
    let t : Timespec := ⟨(w.clock w.tick).sec + timeout, (w.clock w.tick).nsec⟩
    t.sec ≠ 0 ∧ Normal t ∧ ns t = ns (w.clock w.tick) + seconds timeout := by
  obtain ⟨h1, h2⟩ := hc w.tick
  refine ⟨?_, h1, ?_⟩
  · simp only; omega
  · simp only [ns, seconds]; omega

/-- The two ways to run a query. -/
theorem lookup_cases {q : Query} (hr : q.rrtype < 2 ^ 32) (hq : q.lim = {}) {T Ti : Table} (hT : Sorted T) (hTi : Sorted Ti)
    (sf sfi : View → Bytes → Bool) (rm : Option (List Src)) (fill : Option Src) {xs : List Rec}
    (hE : DeliversFrom ⟨curM T sf, curM Ti sfi, rm, fill⟩ q xs) {F : CliFlags} {v : Printer} {text : Entry → Bytes}
    (ht : ∀ x ∈ xs, printEntry F v x.entry = .ok (text x.entry)) (timeout interval : Nat) {w : World} (hw : w.offset = q.offset) :
    ∃ p, initKind q = .ok p ∧ ∀ n,
      let A := (xs.drop q.offset).map Rec.entry
      (timeout = 0 ∧ interval = 0 ∧
        ((n ≤ A.length ∧ ∃ d, lookupRun F v timeout interval q ⟨curM T sf, curM Ti sfi, rm, fill⟩ p n w = .running d ∧
            Printed text (A.take n) d) ∨
         (A.length < n ∧ ∃ d, lookupRun F v timeout interval q ⟨curM T sf, curM Ti sfi, rm, fill⟩ p n w = .ended .failure d ∧
            Printed text A d))) ∨
      ((timeout ≠ 0 ∨ interval ≠ 0) ∧ ∃ (Tm : CliTimers) (d0 : DumpSt _),
        TimedOutcome Tm text A n d0 [] (lookupRun F v timeout interval q ⟨curM T sf, curM Ti sfi, rm, fill⟩ p n w) ∧
        d0.world.clock = w.clock ∧ w.tick < d0.world.tick ∧
        Tm.deadline = (if timeout = 0 then ⟨0, 0⟩ else ⟨(w.clock w.tick).sec + timeout, (w.clock w.tick).nsec⟩) ∧
        Tm.interval = ⟨interval, 0⟩) := by
  obtain ⟨p, hp, hE⟩ := hE
  refine ⟨p, hp, fun n => ?_⟩
  have hE' : ∀ v : World, v.offset = w.offset → ∀ k,
      Returns false ((xs.drop q.offset).map Rec.entry)
        (queryRun q (assemble q ⟨curM T sf, curM Ti sfi, rm, fill⟩ p) (List.replicate k {})
          (assemble q ⟨curM T sf, curM Ti sfi, rm, fill⟩ p).start v) := by
    intro v hv k
    have := hE (List.replicate k {}) v (hv.trans hw) (by rw [hq]; intro h; cases h)
    rw [show q.lim.active = false by rw [hq]; rfl] at this
    exact this
  have ht' : ∀ e ∈ (xs.drop q.offset).map Rec.entry, printEntry (intervalStats interval F) v e = .ok (text e) := by
    intro e he
    obtain ⟨x, hx, rfl⟩ := List.mem_map.1 he
    rw [printEntry_stats]
    exact ht x (List.mem_of_mem_drop hx)
  simp only
  by_cases h0 : timeout = 0 ∧ interval = 0
  · obtain ⟨rfl, rfl⟩ := h0
    refine .inl ⟨rfl, rfl, ?_⟩
    obtain ⟨Z, -, -, hU, hI, -⟩ := assembled (plan_ok hr hp) hT hTi sf sfi rm fill (q := q)
      (l := { doTimeout := true }) (l0 := q.lim) rfl (by rw [hq]; rfl)
    replace hU : assemble q ⟨curM T sf, curM Ti sfi, rm, fill⟩ p = Z.bU p.view p.indirect := hU
    unfold lookupRun
    simp only [limitQuery_none]
    rw [hU] at hE' ⊢
    have := dump_untimed (T := {}) (Z.serves_untimed (V := p.view) (ind := p.indirect) q) ht' n
      (d := { iter := (Z.bU p.view p.indirect).start, lim := q.lim, world := (gettime w).2 })
      (D := []) rfl ⟨rfl, rfl⟩ ⟨hI, fun v' hv' => hE' v' hv'⟩
    simpa using this
  · have h1 : timeout ≠ 0 ∨ interval ≠ 0 := by omega
    refine .inr ⟨h1, ?_⟩
    have hl := limitQuery_spec (q := q) h1 hq (w := w)
    unfold lookupRun
    revert hl
    generalize limitQuery timeout interval q w = x
    obtain ⟨Tm, q', w'⟩ := x
    intro hl
    obtain ⟨g1, g2, g3, g4, g5, g6, g7⟩ := hl
    simp only at g1 g2 g3 g4 g5 g6 g7 ⊢
    have hact : q'.lim.active = true := by simp [Limits.active, g1.deadline]
    obtain ⟨Z, -, hTm, hU, hI, hR⟩ := assembled (plan_ok hr hp) hT hTi sf sfi rm fill (q := q)
      (l := q'.lim) (l0 := q.lim) hact (by rw [hq]; rfl)
    replace hU : assemble q ⟨curM T sf, curM Ti sfi, rm, fill⟩ p = Z.bU p.view p.indirect := hU
    rw [← g2] at hTm
    rw [hU] at hE'
    rw [hTm]
    refine ⟨Tm, { iter := (Z.bT p.view p.indirect).start, lim := q'.lim, world := (gettime w').2 }, ?_, g3,
      by show w.tick < w'.tick + 1; omega, g6, g7⟩
    refine dump_timed (Z.serves_timed q') ht' n (E := (xs.drop q.offset).map Rec.entry) rfl ⟨rfl, rfl⟩ ⟨_, hR, hI, ?_⟩ g1
    intro v' hv' k
    have := hE' v' (hv'.trans g4) k
    rw [g2]
    exact (queryRun_lim q q'.lim _ _ _ _).symm ▸ this

/-- C54.  Whatever the time limits and whatever the clock does, `dnstable_lookup` prints the records that the query
delivers without time limits, each once and in order, and counts them: all of them, unless the time given with `-t`
is over.  Ends of intervals lose and repeat nothing. -/
theorem C54_prints {q : Query} (hr : q.rrtype < 2 ^ 32) (hq : q.lim = {}) {T Ti : Table} (hT : Sorted T) (hTi : Sorted Ti)
    (sf sfi : View → Bytes → Bool) (rm : Option (List Src)) (fill : Option Src) {xs : List Rec}
    (hE : DeliversFrom ⟨curM T sf, curM Ti sfi, rm, fill⟩ q xs) {F : CliFlags} {v : Printer} {text : Entry → Bytes}
    (ht : ∀ x ∈ xs, printEntry F v x.entry = .ok (text x.entry)) (timeout interval : Nat) {w : World}
    (hw : w.offset = q.offset) (hc : ClockOk w) :
    ∃ p, initKind q = .ok p ∧ ∀ n, Answered timeout (fun ys s => s = ys.flatMap fun x => text x.entry) (xs.drop q.offset) w
      (lookupRun F v timeout interval q ⟨curM T sf, curM Ti sfi, rm, fill⟩ p n w) := by
  obtain ⟨p, hp, h⟩ := lookup_cases hr hq hT hTi sf sfi rm fill hE ht timeout interval hw
  refine ⟨p, hp, fun n => ?_⟩
  have part : ∀ {B : Built} {D E : List Entry} {d : DumpSt B}, (xs.drop q.offset).map Rec.entry = D ++ E → Printed text D d →
      ∃ k ≤ (xs.drop q.offset).length, d.out = ((xs.drop q.offset).take k).flatMap (fun x => text x.entry) ∧
        d.count = k % 2 ^ 64 := by
    intro B D E d he hd
    obtain ⟨h1, h2⟩ := split_take he
    rw [List.length_map] at h2
    refine ⟨D.length, h2, ?_, hd.2⟩
    rw [← flatMap_entry, List.map_take, ← h1]
    exact hd.1
  have full : ∀ {B : Built} {d : DumpSt B}, Printed text ((xs.drop q.offset).map Rec.entry) d →
      d.out = (xs.drop q.offset).flatMap (fun x => text x.entry) ∧ d.count = (xs.drop q.offset).length % 2 ^ 64 := by
    intro B d hd
    rw [← flatMap_entry]
    exact ⟨hd.1, by have := hd.2; rwa [List.length_map] at this⟩
  rcases h n with ⟨rfl, rfl, ⟨-, d, h1, h2⟩ | ⟨-, d, h1, h2⟩⟩ | ⟨hor, Tm, d0, h1, h2, h3, h4, h5⟩
  · rw [h1]
    exact part (List.take_append_drop n _).symm h2
  · rw [h1]
    exact .inl ⟨rfl, full h2⟩
  · revert h1
    cases lookupRun F v timeout interval q ⟨curM T sf, curM Ti sfi, rm, fill⟩ p n w with
    | fault f => exact id
    | running d =>
      rintro ⟨D, E, k, e1, e2, -⟩
      exact part e1 e2
    | ended r d =>
      rintro (⟨e1, e2⟩ | ⟨e1, D, E, e2, e3, i, e4, e5, e6⟩)
      · exact .inl ⟨e1, full e2⟩
      · have hi := (hc i).1
        have ht0 : timeout ≠ 0 := by
          rintro rfl
          have hi0 : interval ≠ 0 := by omega
          rw [if_pos rfl] at h4
          rw [h4, h5, if_neg (by simpa using hi0)] at e6
          exact e6.1 rfl
        refine .inr ⟨e1, ht0, ⟨i, by omega, e5, ?_⟩, part e2 e3⟩
        obtain ⟨g1, g2, g3⟩ := deadline_ok hc ht0
        rw [if_neg ht0] at h4
        rw [h2, h4] at e6
        split at e6
        · have := (timespecGe_iff hi g2).1 e6
          omega
        · have h6 := Bool.not_eq_true _ ▸ e6.2
          rw [timespecGe_iff g2 hi] at h6
          omega

/-- C54, ends.  Without `-t` and `-i` the program ends.  With `-t` it ends if from some reading on the clock is past
the time given. -/
theorem C54_ends {q : Query} (hr : q.rrtype < 2 ^ 32) (hq : q.lim = {}) {T Ti : Table} (hT : Sorted T) (hTi : Sorted Ti)
    (sf sfi : View → Bytes → Bool) (rm : Option (List Src)) (fill : Option Src) {xs : List Rec}
    (hE : DeliversFrom ⟨curM T sf, curM Ti sfi, rm, fill⟩ q xs) {F : CliFlags} {v : Printer} {text : Entry → Bytes}
    (ht : ∀ x ∈ xs, printEntry F v x.entry = .ok (text x.entry)) {timeout interval : Nat} {w : World}
    (hw : w.offset = q.offset) (hc : ClockOk w)
    (hend : timeout = 0 ∧ interval = 0 ∨ timeout ≠ 0 ∧ ∃ i0, ∀ i, i0 ≤ i →
      ns (w.clock w.tick) + seconds timeout < ns (w.clock i)) :
    ∃ p, initKind q = .ok p ∧ ∃ n r d,
      lookupRun F v timeout interval q ⟨curM T sf, curM Ti sfi, rm, fill⟩ p n w = .ended r d := by
  obtain ⟨p, hp, h⟩ := lookup_cases hr hq hT hTi sf sfi rm fill hE ht timeout interval hw
  refine ⟨p, hp, ?_⟩
  rcases hend with ⟨rfl, rfl⟩ | ⟨h0, i0, hi0⟩
  · rcases h ((xs.drop q.offset).length + 1) with ⟨-, -, ⟨h1, -⟩ | ⟨-, d, h1, -⟩⟩ | ⟨h1, -⟩
    · simp only [List.length_map] at h1; omega
    · exact ⟨_, _, _, h1⟩
    · omega
  · refine ⟨(xs.drop q.offset).length + i0 + 1, ?_⟩
    rcases h ((xs.drop q.offset).length + i0 + 1) with ⟨h1, -⟩ | ⟨-, Tm, d0, h1, h2, h3, h4, h5⟩
    · exact (h0 h1).elim
    · revert h1
      cases lookupRun F v timeout interval q ⟨curM T sf, curM Ti sfi, rm, fill⟩ p ((xs.drop q.offset).length + i0 + 1) w with
      | fault f => exact False.elim
      | ended r d => exact fun _ => ⟨r, d, rfl⟩
      | running d =>
        rintro ⟨D, E, k, e1, -, e3, e4⟩
        obtain ⟨-, hl⟩ := split_take e1
        simp only [List.length_map, List.length_nil, Nat.add_zero] at hl e3
        rcases e4 with rfl | ⟨-, i, e5, e6⟩
        · omega
        · rw [if_neg h0] at h4
          obtain ⟨g1, g2, g3⟩ := deadline_ok hc h0
          rw [h4, h2] at e6
          have := (timespecGe_iff g2 (hc i).1).1 (e6 g1)
          have := hi0 i (by omega)
          omega

/-- At most three of the clock readings of a run, from number `a` on, are after the deadline `D`; while it goes on,
none is. -/
def Prompt (D : Int) (a : Nat) (w : World) {B : Built} : Dump B → Prop
  | .running d => ∀ i, a ≤ i → i < d.world.tick → ns (w.clock i) ≤ D
  | .ended _ d => ∀ i, a ≤ i → i + 3 < d.world.tick → ns (w.clock i) ≤ D
  | .fault _ => False

/-- C54, promptness.  With `-t`, on a clock that does not go back, the program ends with the first call during which a
clock reading is past the time given, and makes at most two more readings; this holds from the first call on (before
it, two readings are made, or three with `-i`). -/
theorem C54_prompt {q : Query} (hr : q.rrtype < 2 ^ 32) (hq : q.lim = {}) {T Ti : Table} (hT : Sorted T) (hTi : Sorted Ti)
    (sf sfi : View → Bytes → Bool) (rm : Option (List Src)) (fill : Option Src) {xs : List Rec}
    (hE : DeliversFrom ⟨curM T sf, curM Ti sfi, rm, fill⟩ q xs) {F : CliFlags} {v : Printer} {text : Entry → Bytes}
    (ht : ∀ x ∈ xs, printEntry F v x.entry = .ok (text x.entry)) {timeout : Nat} (h0 : timeout ≠ 0) (interval : Nat)
    {w : World} (hw : w.offset = q.offset) (hc : ClockOk w)
    (hm : ∀ i j, i ≤ j → ns (w.clock i) ≤ ns (w.clock j)) :
    ∃ p, initKind q = .ok p ∧ ∀ n,
      Prompt (ns (w.clock w.tick) + seconds timeout) (w.tick + if interval = 0 then 2 else 3) w
        (lookupRun F v timeout interval q ⟨curM T sf, curM Ti sfi, rm, fill⟩ p n w) := by
  obtain ⟨p, hp, hE⟩ := hE
  refine ⟨p, hp, fun n => ?_⟩
  have ht' : ∀ e ∈ (xs.drop q.offset).map Rec.entry, printEntry (intervalStats interval F) v e = .ok (text e) := by
    intro e he
    obtain ⟨x, hx, rfl⟩ := List.mem_map.1 he
    rw [printEntry_stats]
    exact ht x (List.mem_of_mem_drop hx)
  obtain ⟨d1, d2, d3⟩ := deadline_ok hc h0
  have hl := limitQuery_spec (q := q) (timeout := timeout) (interval := interval) (.inl h0) hq (w := w)
  have hl2 := limitQuery_within (interval := interval) h0 q (fun i => (hc i).1) (hc w.tick).2
  unfold lookupRun
  revert hl hl2
  generalize limitQuery timeout interval q w = x
  obtain ⟨Tm, q', w'⟩ := x
  rintro ⟨g1, g2, g3, g4, g5, g6, g7⟩ ⟨k1, k2⟩
  simp only at g1 g2 g3 g4 g5 g6 g7 k1 k2 ⊢
  rw [if_neg h0] at g6
  have hact : q'.lim.active = true := by simp [Limits.active, g1.deadline]
  obtain ⟨Z, -, hTm, hU, hI, hR⟩ := assembled (plan_ok hr hp) hT hTi sf sfi rm fill (q := q)
    (l := q'.lim) (l0 := q.lim) hact (by rw [hq]; rfl)
  replace hU : assemble q ⟨curM T sf, curM Ti sfi, rm, fill⟩ p = Z.bU p.view p.indirect := hU
  rw [← g2] at hTm
  rw [hTm]
  have hleft : ∀ v' : World, v'.offset = w'.offset → Del q' (Z.bU p.view p.indirect) (Z.bU p.view p.indirect).start v'
      ((xs.drop q.offset).map Rec.entry) := by
    intro v' hv' k
    have := hE (List.replicate k {}) v' (hv'.trans (g4.trans hw)) (by rw [hq]; intro h; cases h)
    rw [show q.lim.active = false by rw [hq]; rfl, hU] at this
    rw [g2]
    exact (queryRun_lim q q'.lim _ _ _ _).symm ▸ this
  have := dump_prompt (F := intervalStats interval F) (v := v) (T := Tm) (Z.serves_timed (V := p.view) (ind := p.indirect) q')
    (text := text) (by rw [g6]; exact d1) (by rw [g6]; exact d2) (by rw [g7]; exact ⟨Int.le_refl _, by simp⟩) n
    (d := { iter := (Z.bT p.view p.indirect).start, lim := q'.lim, world := (gettime w').2 })
    ht' ⟨_, hR, hI, hleft⟩ g1 k1
    (fun i => by show Normal (w'.clock i); rw [g3]; exact (hc i).1)
    (fun i j hij => by show ns (w'.clock i) ≤ ns (w'.clock j); rw [g3]; exact hm i j hij)
  have e1 : ns Tm.deadline = ns (w.clock w.tick) + seconds timeout := by rw [g6]; exact d3
  have e2 : (gettime w').2.tick = w.tick + if interval = 0 then 2 else 3 := by
    show w'.tick + 1 = _
    rw [k2]; split <;> rfl
  have e3 : (gettime w').2.clock = w.clock := g3
  revert this
  cases dumpLoop _ _ _ _ _ _ _ with
  | fault f => exact id
  | running d => intro h i; rw [← e2, ← e1, ← e3]; exact h i
  | ended r d => intro h i; rw [← e2, ← e1, ← e3]; exact h i

/-! ## What is printed -/

/-- C54, `-n`: nothing is printed. -/
theorem C54_count {F : CliFlags} (hF : F.count = true) (v : Printer) (e : Entry) : printEntry F v e = .ok [] := by
  unfold printEntry; rw [if_pos hF]

section
variable {v : Printer} {T : Texts}

theorem entry_plain (x : Rec) : x.entry.setIszone false = x.entry := by
  cases x <;> rfl

theorem hasLines_empty : HasLines [10] [[]] := ⟨[[]], rfl, by simp, ⟨rfl, trivial⟩⟩

theorem hasLines_ne_nil {s : Bytes} {l : List Form} {ls : List (List Form)} (h : HasLines s (l :: ls)) : s ≠ [] := by
  obtain ⟨ss, rfl, -, h⟩ := h
  cases ss with
  | nil => exact h.elim
  | cons s ss => simp

theorem textLines_ne_nil (T : Texts) (rfc zone : Bool) (x : Rec) : textLines T rfc zone x ≠ [] := by
  cases x <;> simp [textLines]

theorem entry_count {x : Rec} (hx : x.legal) : x.entry.count < 2 ^ 64 := by
  cases x with
  | rrset r o =>
    obtain ⟨-, h1, h2, h3⟩ := hx
    show (if o.count = 0 then 1 else o.count) < _
    split <;> omega
  | rr r o =>
    obtain ⟨-, h1, h2, h3⟩ := hx
    show (if o.count = 0 then 1 else o.count) < _
    split <;> omega
  | _ => show 0 < _; decide

/-- One record without `-j`, `-J` and `-n`. -/
theorem printed_lines (hg : GmtimeOk v.gmtime) (hL : LocaleOk v.locale) (hS : LocaleStrings v.locale)
    (hw : TextsOk v.wdns T) (hT : LineTexts T) {F : CliFlags} (hF : F.json = false ∧ F.jsonRfc = false ∧ F.count = false)
    {x : Rec} (hx : x.legal) (hp : Printable x) :
    ∃ s, printEntry F v x.entry = .ok s ∧ HasLines s (outputLines T x) := by
  obtain ⟨f1, f2, f3⟩ := hF
  obtain ⟨e, text, h1, h2, h3⟩ := C51_plain_partial hg hL hw hT false x hx hp
  rw [Rec.decode hx] at h1
  cases h1
  rw [entry_plain] at h2
  have h0 := entryToText_nonul _ hS (fun n hn => (hL.grouped n hn).2.1) _ (entry_count hx) h2
  have hne : text ≠ [] := by
    cases hl : textLines T false false x with
    | nil => exact (textLines_ne_nil _ _ _ _ hl).elim
    | cons a b => rw [hl] at h3; exact hasLines_ne_nil h3
  unfold printEntry entryString
  rw [if_neg (by simp [f3]), if_neg (by simp [f1, f2]), h2]
  simp only
  rw [cstr_eq (fun c hc e => h0 (e ▸ hc)), if_pos (List.length_pos_iff.2 hne)]
  refine ⟨_, rfl, ?_⟩
  unfold outputLines
  simp only [f1, f2, Bool.false_or]
  cases x with
  | rrset r o =>
    rw [if_pos (by rfl)]
    exact hasLines_append h3 hasLines_empty
  | _ =>
    split
    · next h => exact Bool.noConfusion (show false = true from h)
    · simpa using h3

/-- One record with `-j` or `-J`. -/
theorem printed_json (hb : v.numbuf.length = 32) (hg : GmtimeOk v.gmtime) (hw : TextsOk v.wdns T) {F : CliFlags}
    (hF : (F.json = true ∨ F.jsonRfc = true) ∧ F.count = false)
    {x : Rec} (hx : x.legal) (hp : Presentable ⟨F.json, false, F.addRaw⟩ x) :
    ∃ s, printEntry F v x.entry = .ok (s ++ [10]) ∧ 10 ∉ s ∧ Shows s (shown T ⟨F.json, false, F.addRaw⟩ false x) := by
  obtain ⟨f1, f3⟩ := hF
  have hj : (F.jsonRfc || F.json) = true := by rcases f1 with h | h <;> simp [h]
  obtain ⟨e, text, h1, h2, h3⟩ := C39_formatter_partial (L := v.locale) hb hg hw
    (((({} : Formatter).setOutputFormat true).setDateFormat F.json).setRawRdata F.addRaw)
    (.inr ⟨{ unixDates := F.json, addRawRdata := F.addRaw }, rfl⟩) false x hx hp
  rw [Rec.decode hx] at h1
  cases h1
  rw [entry_plain] at h2
  obtain ⟨vs, h4, h5⟩ := h3
  have hcl := readJson_clean h4
  refine ⟨text, ?_, fun h => absurd (hcl _ h) (by decide), vs, h4, h5⟩
  unfold printEntry entryString
  rw [if_neg (by simp [f3]), if_pos hj, h2]
  simp only
  rw [cstr_eq (fun c hc e => absurd (hcl c hc) (by subst e; decide)), if_pos (List.length_pos_iff.2 (readJson_ne_nil h4)),
    if_pos (by simp [hj])]

/-- The text printed, as a function. -/
def textOf (F : CliFlags) (v : Printer) (e : Entry) : Bytes :=
  match printEntry F v e with | .ok s => s | _ => []

theorem textOf_ok {F : CliFlags} {e : Entry} {s : Bytes} (h : printEntry F v e = .ok s) :
    printEntry F v e = .ok (textOf F v e) := by unfold textOf; rw [h]

/-- C54, text.  Without `-j`, `-J` and `-n` the program writes the text forms of the records delivered, with an empty
line after every RRset.  Partial: the records have to be printable (see C51). -/
theorem C54_text_partial {q : Query} (hr : q.rrtype < 2 ^ 32) (hq : q.lim = {}) {Tb Ti : Table} (hT : Sorted Tb)
    (hTi : Sorted Ti) (sf sfi : View → Bytes → Bool) (rm : Option (List Src)) (fill : Option Src) {xs : List Rec}
    (hE : DeliversFrom ⟨curM Tb sf, curM Ti sfi, rm, fill⟩ q xs) (hxs : ∀ x ∈ xs, x.legal ∧ Printable x)
    (hg : GmtimeOk v.gmtime) (hL : LocaleOk v.locale) (hS : LocaleStrings v.locale)
    (hw : TextsOk v.wdns T) (hl : LineTexts T) {F : CliFlags} (hF : F.json = false ∧ F.jsonRfc = false ∧ F.count = false)
    (timeout interval : Nat) {w : World} (ho : w.offset = q.offset) (hc : ClockOk w) :
    ∃ p, initKind q = .ok p ∧ ∀ n,
      Answered timeout (fun ys s => HasLines s (ys.flatMap (outputLines T))) (xs.drop q.offset) w
        (lookupRun F v timeout interval q ⟨curM Tb sf, curM Ti sfi, rm, fill⟩ p n w) := by
  have one := fun x hx => printed_lines hg hL hS hw hl hF (hxs x hx).1 (hxs x hx).2
  obtain ⟨p, hp, h⟩ := C54_prints hr hq hT hTi sf sfi rm fill hE (F := F) (v := v) (text := textOf F v)
    (fun x hx => (one x hx).elim fun s hs => textOf_ok hs.1) timeout interval ho hc
  refine ⟨p, hp, fun n => (h n).mono ?_⟩
  rintro ys s hys rfl
  induction ys with
  | nil => exact ⟨[], rfl, by simp, trivial⟩
  | cons y ys ih =>
    obtain ⟨s, h1, h2⟩ := one y (List.mem_of_mem_drop (hys y List.mem_cons_self))
    have : textOf F v y.entry = s := by unfold textOf; rw [h1]
    simp only [List.flatMap_cons, this]
    exact hasLines_append h2 (ih fun x hx => hys x (List.mem_cons_of_mem _ hx))

/-- C54, JSON.  With `-j` or `-J` the program writes one line with a JSON object for every record delivered.
Partial: the records have to be presentable (see C39). -/
theorem C54_json_partial {q : Query} (hr : q.rrtype < 2 ^ 32) (hq : q.lim = {}) {Tb Ti : Table} (hT : Sorted Tb)
    (hTi : Sorted Ti) (sf sfi : View → Bytes → Bool) (rm : Option (List Src)) (fill : Option Src) {xs : List Rec}
    (hE : DeliversFrom ⟨curM Tb sf, curM Ti sfi, rm, fill⟩ q xs) {F : CliFlags}
    (hxs : ∀ x ∈ xs, x.legal ∧ Presentable ⟨F.json, false, F.addRaw⟩ x)
    (hb : v.numbuf.length = 32) (hg : GmtimeOk v.gmtime) (hw : TextsOk v.wdns T)
    (hF : (F.json = true ∨ F.jsonRfc = true) ∧ F.count = false)
    (timeout interval : Nat) {w : World} (ho : w.offset = q.offset) (hc : ClockOk w) :
    ∃ p, initKind q = .ok p ∧ ∀ n,
      Answered timeout (fun ys s => JsonLines T ⟨F.json, false, F.addRaw⟩ ys s) (xs.drop q.offset) w
        (lookupRun F v timeout interval q ⟨curM Tb sf, curM Ti sfi, rm, fill⟩ p n w) := by
  have one := fun x hx => printed_json hb hg hw hF (hxs x hx).1 (hxs x hx).2
  obtain ⟨p, hp, h⟩ := C54_prints hr hq hT hTi sf sfi rm fill hE (F := F) (v := v) (text := textOf F v)
    (fun x hx => (one x hx).elim fun s hs => textOf_ok hs.1) timeout interval ho hc
  refine ⟨p, hp, fun n => (h n).mono ?_⟩
  rintro ys s hys rfl
  induction ys with
  | nil => exact ⟨[], rfl, by simp, trivial⟩
  | cons y ys ih =>
    obtain ⟨s, h1, h2, h3⟩ := one y (List.mem_of_mem_drop (hys y List.mem_cons_self))
    have e : textOf F v y.entry = s ++ [10] := by unfold textOf; rw [h1]
    obtain ⟨ss, g1, g2, g3⟩ := ih fun x hx => hys x (List.mem_cons_of_mem _ hx)
    refine ⟨s :: ss, ?_, ?_, ⟨h3, g3⟩⟩
    · simp only [List.flatMap_cons, e, g1]
    · intro t ht
      rcases List.mem_cons.1 ht with rfl | ht
      · exact h2
      · exact g2 t ht

end

/-! ## Examples -/

/-- Every kind of line. -/
def exPrinter : Printer := ⟨List.replicate 32 0, fun _ => some (⟨2024, 2, 29, 23, 59, 58⟩ : Stamp).tm, exLocale [44], exWdns⟩

/-- The A records below `com`. -/
def exLookup : Query := Ask.query { ty := some 1 } .rrset (wire ([42] :: exCom))

theorem exLookup_delivers : Delivers exRrsets exLookup (exRrsets.filter (wantRrset (leftWild 42 exCom) (some 1) none {})) :=
  C19_left_wildcard exRrsets_stored (.inl rfl) (by decide) (a := { ty := some 1 }) ⟨by simp, by simp⟩

theorem exWorldClock (n : Nat) : ClockOk (exWorld n) := fun i => ⟨by simp [exWorld, Normal], by simp [exWorld]⟩

theorem exLocale_strings : LocaleStrings (exLocale [44]) where
  grouped n := by
    show 0 ∉ groupsOf3 [44] n
    have I : ∀ n, (0 : UInt8) ≠ digitChar n := fun n => by
      have : IsDigit (digitChar n) := by unfold IsDigit; rw [digitChar_toNat]; omega
      exact (digit_ne this).2.symm
    induction n using Nat.strongRecOn with
    | _ n ih =>
      rw [groupsOf3]
      split
      · exact fun h => (digit_ne ((decimal_numeral n).digits _ h)).2 rfl
      · have := ih (n / 1000) (by omega)
        simp [this, I]
  clock t := by
    have h : ∀ k n, (0 : UInt8) ∉ digitsK k n := fun k n h => (digit_ne (digitsK_digit k n _ h)).2 rfl
    simp [exLocale, clockString, h]

/-- The records delivered. -/
def exFound : List Rec := exRrsets.filter (wantRrset (leftWild 42 exCom) (some 1) none {})

theorem exFound_ok : ∀ x ∈ exFound, x.legal ∧ Printable x := by
  intro x hx
  have hm := (List.mem_filter.1 hx).1
  refine ⟨exRrsets_stored.1 x hm, ?_⟩
  simp only [exRrsets, List.mem_cons, List.not_mem_nil, or_false] at hm
  rcases hm with rfl | rfl | rfl | rfl | rfl | rfl <;> (unfold Printable; decide +kernel)

/-- The hypotheses of the theorems are met: four RRsets, on a clock that advances. -/
example : ∃ v : Printer, ∀ (timeout interval n : Nat), ∃ p, initKind exLookup = .ok p ∧
    Answered timeout (fun ys s => HasLines s (ys.flatMap (outputLines exTexts))) exFound (exWorld 0)
      (lookupRun {} v timeout interval exLookup (plainSources (curM (rowsOf exRrsets) fun _ _ => false)) p n (exWorld 0)) := by
  obtain ⟨g, hg⟩ := gmtime_exists
  refine ⟨⟨List.replicate 32 0, g, exLocale [44], exWdns⟩, fun timeout interval n => ?_⟩
  obtain ⟨p, hp, h⟩ := C54_text_partial (v := ⟨List.replicate 32 0, g, exLocale [44], exWdns⟩) (by decide) rfl (by decide +kernel)
    (by decide +kernel) (fun _ _ => false) (fun _ _ => false) none none (exLookup_delivers fun _ _ => false) exFound_ok (F := {}) hg
    (exLocale_ok (by decide) (by decide) (by decide)) exLocale_strings exTexts_ok exTexts_lines ⟨rfl, rfl, rfl⟩
    timeout interval rfl (exWorldClock 0)
  exact ⟨p, hp, h n⟩

/-- As JSON, ended by `-t 3`. -/
example : ∃ v : Printer, ∃ p, initKind exLookup = .ok p ∧
    (∀ n, Answered 3 (fun ys s => JsonLines exTexts ⟨false, false, true⟩ ys s) exFound (exWorld 0)
      (lookupRun { jsonRfc := true, addRaw := true } v 3 2 exLookup
        (plainSources (curM (rowsOf exRrsets) fun _ _ => false)) p n (exWorld 0))) := by
  obtain ⟨g, hg⟩ := gmtime_exists
  refine ⟨⟨List.replicate 32 0, g, exLocale [44], exWdns⟩, ?_⟩
  exact C54_json_partial (v := ⟨List.replicate 32 0, g, exLocale [44], exWdns⟩) (by decide) rfl (by decide +kernel)
    (by decide +kernel) (fun _ _ => false) (fun _ _ => false) none none (exLookup_delivers fun _ _ => false)
    (F := { jsonRfc := true, addRaw := true })
    (fun x hx => ⟨(exFound_ok x hx).1, by
      have hm := (List.mem_filter.1 hx).1
      simp only [exRrsets, List.mem_cons, List.not_mem_nil, or_false] at hm
      rcases hm with rfl | rfl | rfl | rfl | rfl | rfl <;> exact fun _ => by decide +kernel⟩)
    (by simp) hg exTexts_ok ⟨.inr rfl, rfl⟩ 3 2 rfl (exWorldClock 0)

/-- The program ends when the clock has passed the time given. -/
example : ∃ p, initKind exLookup = .ok p ∧ ∃ n r d,
    lookupRun { count := true } exPrinter 3 1 exLookup (plainSources (curM (rowsOf exRrsets) fun _ _ => false)) p n
      (exWorld 0) = .ended r d :=
  C54_ends (by decide) rfl (by decide +kernel) (by decide +kernel) (fun _ _ => false) (fun _ _ => false) none none
    (exLookup_delivers fun _ _ => false) (text := fun _ => []) (fun x _ => C54_count rfl exPrinter x.entry) rfl (exWorldClock 0)
    (.inr ⟨by decide, 4, fun i hi => by simp only [exWorld, ns, seconds]; omega⟩)

/-- The clock of the example does not go back. -/
example : ∃ p, initKind exLookup = .ok p ∧ ∀ n,
    Prompt (ns ((exWorld 0).clock (exWorld 0).tick) + seconds 3) 3 (exWorld 0)
      (lookupRun { count := true } exPrinter 3 1 exLookup (plainSources (curM (rowsOf exRrsets) fun _ _ => false)) p n
        (exWorld 0)) :=
  C54_prompt (by decide) rfl (by decide +kernel) (by decide +kernel) (fun _ _ => false) (fun _ _ => false) none none
    (exLookup_delivers fun _ _ => false) (text := fun _ => []) (fun x _ => C54_count rfl exPrinter x.entry) (by decide) 1 rfl
    (exWorldClock 0) (fun i j hij => by simp only [exWorld, ns]; omega)

/-- What a run leaves: 0 if it goes on, 1 at the end of the answer, 2 when timed out; the count, the clock readings
made, the number of bytes written, and how it says goodbye. -/
def exRun (F : CliFlags) (timeout interval n : Nat) : Nat × Nat × Nat × Nat × Bytes :=
  match initKind exLookup with
  | .ok p =>
    match lookupRun F exPrinter timeout interval exLookup (plainSources (curM (rowsOf exRrsets) fun _ _ => false)) p n
        (exWorld 0) with
    | .running d => (0, d.count, d.world.tick, d.out.length, [])
    | .ended r d =>
      (if r = .timeout then 2 else 1, d.count, d.world.tick, d.out.length, farewell F exPrinter r d.count)
    | .fault _ => (3, 0, 0, 0, [])
  | _ => (4, 0, 0, 0, [])

/-- All four RRsets; one of them with `-t 3`, on a clock that advances by a second with every reading; with `-i 2`
four of nine calls have a record. -/
example :
    exRun {} 0 0 4 = (0, 4, 1, 624, []) ∧
    exRun {} 0 0 5 = (1, 4, 1, 624, ascii ";;; Dumped 4 entries.\n") ∧
    exRun {} 3 0 5 = (2, 1, 4, 143, ascii ";;; timed out\n;;; Dumped 1 entries.\n") ∧
    exRun { json := true } 3 0 5 = (2, 1, 4, 114, []) ∧
    exRun { count := true } 12 2 9 = (2, 1, 14, 0, ascii ";;; timed out\n;;; Dumped 1 entries.\n") ∧
    exRun { json := true } 0 2 9 = (0, 4, 22, 508, []) := by
  refine ⟨?_, ?_, ?_, ?_, ?_, ?_⟩ <;> decide +kernel

end Verif.Props
