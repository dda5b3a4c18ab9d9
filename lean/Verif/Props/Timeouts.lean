import Verif.Lemmas.Meter
import Verif.Lemmas.DecodeDiv
import Verif.Props.Rrset

/-!
# Time limits (C30, C31, C49)

`assemble q ⟨curM T sf, curM Ti sfi, rm, fill⟩ p` is the iterator of any query, over any table of
records, with or without removal and fill tables.
-/

namespace Verif.Props
open Spec

theorem queryRun_lim (q : Query) (l0 : Limits) (B : Built) (ls : List Limits) :
    ∀ (s : QSt B) (w : World), queryRun { q with lim := l0 } B ls s w = queryRun q B ls s w := by
  induction ls with
  | nil => intros; rfl
  | cons l ls ih => intro s w; simp only [queryRun, ih]

/-! ## C30: resuming after a timeout -/

/-- C30.  Whatever the time limits of the calls and whatever the clock does, the answers given
(timeouts left out) are those given by the same query without time limits: the same entries in the
same order, and the same end. -/
theorem C30_resume {q : Query} {p : Plan} (hr : q.rrtype < 2 ^ 32) (hp : initKind q = .ok p)
    {T Ti : Table} (hT : Sorted T) (hTi : Sorted Ti) (sf sfi : View → Bytes → Bool)
    (rm : Option (List Src)) (fill : Option Src) (hq : q.lim.active = true) {ls : List Limits}
    (hls : ∀ l ∈ ls, l.active = true) {w v : World} (hv : v.offset = w.offset) :
    let S : Sources := ⟨curM T sf, curM Ti sfi, rm, fill⟩
    let q0 : Query := { q with lim := {} }
    let run := queryRun q (assemble q S p) ls (assemble q S p).start w
    replies run =
      (queryRun q0 (assemble q0 S p) (List.replicate (replies run).length {}) (assemble q0 S p).start v).map (·.res) := by
  obtain ⟨Z, -, h1, h2, hI, hR⟩ := assembled (plan_ok hr hp) hT hTi sf sfi rm fill (q := q) hq
    (l0 := {}) rfl
  obtain ⟨-, k, hk⟩ := Z.run_twin q ls hls (w := w) (v := v) hR hI hv
  simp only
  replace h1 : assemble q ⟨curM T sf, curM Ti sfi, rm, fill⟩ p = Z.bT p.view p.indirect := h1
  rw [h1, h2]
  have hk' : replies (queryRun q (Z.bT p.view p.indirect) ls (Z.bT p.view p.indirect).start w) =
    (queryRun q (Z.bU p.view p.indirect) (List.replicate k {}) (Z.bU p.view p.indirect).start v).map (·.res) := hk
  have hlen : ∀ (B : Built) (ls : List Limits) (s : QSt B) (w : World), (queryRun q B ls s w).length = ls.length := by
    intro B ls
    induction ls with
    | nil => intros; rfl
    | cons l ls ih => intro s w; simp [queryRun, ih]
  have : (replies (queryRun q (Z.bT p.view p.indirect) ls (Z.bT p.view p.indirect).start w)).length = k := by
    rw [hk']; simp [hlen]
  rw [this, hk']
  exact congrArg _ (queryRun_lim q {} _ _ _ _).symm

/-- A clock that advances by one second at every reading. -/
def exWorld (n : Nat) : World := ⟨fun i => ⟨i, 0⟩, 0, ⟨0, 0⟩, false, n, fun _ => {}⟩

/-- `a.com` with two RRsets, the second one undecodable, and `a.org` with one; then the index of the
names. -/
def exRows : Table :=
  [([0, 3, 99, 111, 109, 1, 97, 0, 1, 3, 99, 111, 109, 0, 4, 1, 2, 3, 4], [5, 6, 7]),
   ([0, 3, 99, 111, 109, 1, 97, 0, 1, 70], [5, 6, 7]),
   ([0, 3, 111, 114, 103, 1, 97, 0, 1, 0], [8, 9, 1]),
   ([1, 1, 97, 3, 99, 111, 109, 0], []),
   ([1, 1, 97, 3, 111, 114, 103, 0], [])]

/-- The plan of a query for `a.*`. -/
def exPlan : Plan := { view := .pfx [1, 1, 97], indirect := some 0 }

/-- `a.*` with three seconds for each call. -/
example :
    let q : Query := { qType := .rrset, name := [1, 97, 1, 42, 0], lim := { doTimeout := true, timeout := ⟨3, 0⟩ } }
    let p := exPlan
    let S := plainSources (curM exRows fun _ _ => false)
    q.rrtype < 2 ^ 32 ∧ initKind q = .ok p ∧ Sorted exRows ∧ q.lim.active = true ∧
    (queryRun q (assemble q S p) (List.replicate 6 { doTimeout := true, timeout := ⟨3, 0⟩ })
        (assemble q S p).start (exWorld 0)).map
      (fun c => match c.res with | .entry _ => 0 | .failure => 1 | .timeout => 2 | .fault _ => 3) =
      [0, 2, 0, 1, 1, 1] := by
  refine ⟨by decide, by rfl, by decide +kernel, rfl, by decide +kernel⟩

/-! ## C31: deadlines -/

theorem queryRun_calls {q : Query} {B : Built} {ls : List Limits} :
    ∀ {s : QSt B} {w : World}, (∀ c ∈ queryRun q B ls s w, Timely c) →
      ∀ c ∈ queryRun q B ls s w, c.lim ∈ ls ∧ c.before.clock = w.clock := by
  induction ls with
  | nil => intro s w _ c hc; simp [queryRun] at hc
  | cons l ls ih =>
    intro s w h c hc
    simp only [queryRun, List.mem_cons] at hc
    simp only [queryRun] at h
    rcases hc with rfl | hc
    · exact ⟨List.mem_cons_self, rfl⟩
    · obtain ⟨h1, h2⟩ := ih (fun c hc => h c (List.mem_cons_of_mem _ hc)) c hc
      exact ⟨List.mem_cons_of_mem _ h1, h2.trans (h _ List.mem_cons_self).2.1⟩

/-- C31, deadlines.  Every call reports a timeout exactly when a clock reading has reached the earlier
of the absolute deadline and the moment of the call plus the relative timeout; that reading is then
the last one made. -/
theorem C31_deadline {q : Query} {p : Plan} (hr : q.rrtype < 2 ^ 32) (hp : initKind q = .ok p)
    {T Ti : Table} (hT : Sorted T) (hTi : Sorted Ti) (sf sfi : View → Bytes → Bool)
    (rm : Option (List Src)) (fill : Option Src) (hq : q.lim.active = true) {ls : List Limits}
    (hls : ∀ l ∈ ls, l.active = true) (hn : ∀ l ∈ ls, NormalLimits l) {w : World}
    (hc : ∀ i, Normal (w.clock i)) :
    let S : Sources := ⟨curM T sf, curM Ti sfi, rm, fill⟩
    ∀ c ∈ queryRun q (assemble q S p) ls (assemble q S p).start w,
      ∃ stop, stopTime c.lim (c.before.clock c.before.tick) = some stop ∧ OnTime c stop := by
  obtain ⟨Z, -, h1, -, hI, hR⟩ := assembled (plan_ok hr hp) hT hTi sf sfi rm fill (q := q) hq
    (l0 := {}) rfl
  obtain ⟨ht, -⟩ := Z.run_twin q ls hls (w := w) (v := w) hR hI rfl
  simp only
  replace h1 : assemble q ⟨curM T sf, curM Ti sfi, rm, fill⟩ p = Z.bT p.view p.indirect := h1
  rw [h1]
  intro c hcm
  obtain ⟨hl, hk⟩ := queryRun_calls ht c hcm
  have hact := hls _ hl
  obtain ⟨stop, hs⟩ : ∃ stop, stopTime c.lim (c.before.clock c.before.tick) = some stop := by
    unfold Limits.active at hact
    unfold stopTime
    cases h1 : c.lim.doTimeout <;> cases h2 : c.lim.doDeadline <;> simp_all
  exact ⟨stop, hs, timely_onTime (ht c hcm) (hn _ hl) (fun i => by rw [hk]; exact hc i) hs⟩

/-- C31, steps.  A call takes at most one step of the source and of the index table for every clock
reading that had not reached the deadline: no step is taken without looking at the clock first. -/
theorem C31_steps (q : Query) (p : Plan) (T Ti : Table) (sf sfi : View → Bytes → Bool)
    (rm : Option (List Src)) (fill : Option Src) (hq : q.lim.active = true) {ls : List Limits}
    (hls : ∀ l ∈ ls, l.active = true) (w : World) :
    let S : Sources := ⟨counted (curM T sf), counted (curM Ti sfi), rm, fill⟩
    ∀ c ∈ queryRun q (assemble q S p) ls (assemble q S p).start w,
      steps c.after - steps c.before ≤ c.goodReadings := by
  refine metered_run ?_ ?_ q ls hls _ w
  · show Metered (withOffset q (withTimes q rm fill (withFilters p.onSource (withTimeout q _))))
    unfold withTimeout
    rw [if_pos hq]
    exact (((metered_timeout T sf).filters _).times q rm fill).offset q
  · show Metered (withFilters p.onIndex (withTimeout q _))
    unfold withTimeout
    rw [if_pos hq]
    exact (metered_timeout Ti sfi).filters _

/-- A query opened without time limits never reports a timeout, whatever limits are set later. -/
theorem C31_unlimited {q : Query} {p : Plan} (hr : q.rrtype < 2 ^ 32) (hp : initKind q = .ok p)
    {T Ti : Table} (hT : Sorted T) (hTi : Sorted Ti) (sf sfi : View → Bytes → Bool)
    (rm : Option (List Src)) (fill : Option Src) (hq : q.lim.active = false) (ls : List Limits) (w : World) :
    let S : Sources := ⟨curM T sf, curM Ti sfi, rm, fill⟩
    ∀ c ∈ queryRun q (assemble q S p) ls (assemble q S p).start w, c.res ≠ .timeout := by
  obtain ⟨Z, -, -, h1, hI, -⟩ := assembled (plan_ok hr hp) hT hTi sf sfi rm fill (q := q)
    (l := { doTimeout := true }) rfl hq
  simp only
  replace h1 : assemble q ⟨curM T sf, curM Ti sfi, rm, fill⟩ p = Z.bU p.view p.indirect := h1
  rw [h1]
  intro c hc
  exact (Z.run_fwd q ls hI c hc).1

/-- Four calls with normalised times: the second one starts at second 3, has to stop at second 6, and
reports a timeout after its reading number 6 (two steps having been taken); the last one has to stop at
the absolute deadline. -/
example :
    let l : Limits := { doTimeout := true, timeout := ⟨3, 0⟩, doDeadline := true, deadline := ⟨12, 500000000⟩ }
    let q : Query := { qType := .rrset, name := [1, 97, 1, 42, 0], lim := l }
    let p := exPlan
    let S := plainSources (counted (curM exRows fun _ _ => false))
    NormalLimits l ∧ (∀ i, Normal ((exWorld 0).clock i)) ∧
    (queryRun q (assemble q S p) (List.replicate 4 l) (assemble q S p).start (exWorld 0)).map
      (fun c => (stopTime c.lim (c.before.clock c.before.tick), c.firstReading, c.after.tick,
        steps c.after - steps c.before, decide (c.res = .timeout))) =
      [(some 3000000000, 1, 3, 2, false), (some 6000000000, 4, 7, 2, true),
       (some 10000000000, 8, 10, 2, false), (some 12500000000, 11, 13, 2, false)] := by
  refine ⟨⟨by simp [Normal], by simp [Normal]⟩, fun i => by simp [exWorld, Normal], by decide +kernel⟩

/-- Clearing both limits between two calls of a query opened with a time limit leaves the table's
timeout stage in place: when the old deadline has passed, the next call jumps to the environment of a
call that has already returned. -/
theorem C31_cleared_counterexample :
    let l : Limits := { doTimeout := true, timeout := ⟨3, 0⟩ }
    let q : Query := { qType := .rrset, name := [1, 97, 1, 42, 0], lim := l }
    let p := exPlan
    let S := plainSources (curM exRows fun _ _ => false)
    initKind q = .ok p ∧
    ((queryRun q (assemble q S p) [l, {}] (assemble q S p).start (exWorld 0)).map (·.res)).getLast? =
      some (.fault .staleJump) := by
  refine ⟨by rfl, by decide +kernel⟩

/-! ## C49: every call ends -/

/-- C49.  Every call of a query iterator ends, with or without time limits: if one does not, there is a
row in the source table whose decoding does not end (see
`C17_diverge_counterexample`). -/
theorem C49_terminates {q : Query} {p : Plan} (hr : q.rrtype < 2 ^ 32) (hp : initKind q = .ok p)
    {T Ti : Table} (hT : Sorted T) (hTi : Sorted Ti) (sf sfi : View → Bytes → Bool)
    (rm : Option (List Src)) (fill : Option Src) {ls : List Limits}
    (hls : q.lim.active = true → ∀ l ∈ ls, l.active = true) (w : World)
    (hd : ∀ kv ∈ T, entryDecode kv.1 kv.2 ≠ .fault .diverge) :
    let S : Sources := ⟨curM T sf, curM Ti sfi, rm, fill⟩
    ∀ c ∈ queryRun q (assemble q S p) ls (assemble q S p).start w, c.res ≠ .fault .diverge := by
  simp only
  cases hq : q.lim.active with
  | false =>
    obtain ⟨Z, hP, -, h1, hI, -⟩ := assembled (plan_ok hr hp) hT hTi sf sfi rm fill (q := q)
      (l := { doTimeout := true }) rfl hq
    replace h1 : assemble q ⟨curM T sf, curM Ti sfi, rm, fill⟩ p = Z.bU p.view p.indirect := h1
    rw [h1]
    intro c hc he
    obtain ⟨k, val, hk, h⟩ := (Z.run_fwd q ls hI c hc).2 he
    rw [hP] at hk
    obtain ⟨-, v, hv⟩ := hk
    exact hd _ hv (diverge_key h v)
  | true =>
    obtain ⟨Z, hP, h1, -, hI, hR⟩ := assembled (plan_ok hr hp) hT hTi sf sfi rm fill (q := q) hq
      (l0 := {}) rfl
    replace h1 : assemble q ⟨curM T sf, curM Ti sfi, rm, fill⟩ p = Z.bT p.view p.indirect := h1
    rw [h1]
    obtain ⟨-, k, hk⟩ := Z.run_twin q ls (hls hq) (w := w) (v := w) hR hI rfl
    intro c hc he
    have hm : QRes.fault .diverge ∈ ((queryRun q (Z.bT p.view p.indirect) ls (Z.bT p.view p.indirect).start w).map
        (·.res)).filter (· ≠ .timeout) := by
      rw [List.mem_filter]
      exact ⟨List.mem_map.2 ⟨c, hc, he⟩, by simp⟩
    rw [hk] at hm
    obtain ⟨c', hc', he'⟩ := List.mem_map.1 hm
    obtain ⟨k, val, hk, h⟩ := (Z.run_fwd q _ hI c' hc').2 he'
    rw [hP] at hk
    obtain ⟨-, v, hv⟩ := hk
    exact hd _ hv (diverge_key h v)

/-- The rows above meet the condition. -/
example : ∀ kv ∈ exRows, entryDecode kv.1 kv.2 ≠ .fault .diverge := by decide +kernel

end Verif.Props
