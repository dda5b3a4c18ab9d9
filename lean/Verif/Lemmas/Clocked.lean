import Verif.Model.LookupRun
import Verif.Model.Fileset

/-! # No part of a query does anything to the clock but read it -/

namespace Verif

/-- The clock is the same and may have been read. -/
def Kept (w w' : World) : Prop := w'.clock = w.clock ∧ w.tick ≤ w'.tick

theorem Kept.refl (w : World) : Kept w w := ⟨rfl, Nat.le_refl _⟩

theorem Kept.trans {a b c : World} (h : Kept a b) (h' : Kept b c) : Kept a c := ⟨h'.1.trans h.1, Nat.le_trans h.2 h'.2⟩

/-- The clock and the deadline are the same and the clock may have been read; if `P`, a reading was not before the
deadline. -/
structure Lapse (w : World) (P : Prop) (w' : World) : Prop where
  kept : Kept w w'
  deadline : w'.deadline = w.deadline
  late : P → ∃ i, w.tick ≤ i ∧ i < w'.tick ∧ timespecGe (w.clock i) w.deadline = true

theorem Lapse.refl {P : Prop} (hP : ¬ P) (w : World) : Lapse w P w := ⟨Kept.refl w, rfl, fun h => (hP h).elim⟩

theorem Lapse.trans {a b c : World} {P Q : Prop} (h : Lapse a P b) (h' : Lapse b Q c) : Lapse a Q c := by
  refine ⟨h.kept.trans h'.kept, h'.deadline.trans h.deadline, fun hQ => ?_⟩
  obtain ⟨i, h1, h2, h3⟩ := h'.late hQ
  rw [h.kept.1, h.deadline] at h3
  exact ⟨i, Nat.le_trans h.kept.2 h1, h2, h3⟩

theorem Lapse.calm {a b : World} {P Q : Prop} (h : Lapse a P b) (hQ : ¬ Q) : Lapse a Q b := ⟨h.kept, h.deadline, fun h => (hQ h).elim⟩

theorem Lapse.upd {a b : World} {P Q : Prop} (h : Lapse a P b) (hQ : ¬ Q) (g : Stage) (f : Stats → Stats) : Lapse a Q (b.upd g f) :=
  ⟨h.kept, h.deadline, fun h => (hQ h).elim⟩

/-- A source that only reads the clock, and times out only if it is late. -/
structure Clocked (M : Mach) : Prop where
  next : ∀ s w, Lapse w ((M.next s w).1 = .timeout) (M.next s w).2.2
  seek : ∀ s k w, Lapse w False (M.seek s k w).2.2

theorem clocked_cur (T : Table) (sf : View → Bytes → Bool) : Clocked (curM T sf) where
  next s w := by
    unfold curM
    simp only
    split
    · exact Lapse.refl nofun w
    · split <;> exact Lapse.refl nofun w
  seek s k w := Lapse.refl nofun w

theorem clocked_timeout {M : Mach} (h : Clocked M) : Clocked (timeoutM M) where
  next s w := by
    unfold timeoutM
    simp only
    have h1 : Lapse w False { w with tick := w.tick + 1 } := ⟨⟨rfl, Nat.le_succ _⟩, rfl, nofun⟩
    split
    · next h0 =>
      split
      · exact ⟨h1.kept, rfl, fun _ => ⟨w.tick, Nat.le_refl _, Nat.lt_succ_self _, h0⟩⟩
      · exact h1.calm nofun
    · exact h1.trans (h.next s _)
  seek := h.seek

theorem clocked_filterLoop {M : Mach} (h : Clocked M) (g : Stage) {f : FilterFn} (hf : ∀ w kv, Lapse w False (f w kv).2) (n : Nat) :
    ∀ s w, Lapse w ((filterLoop g f M n s w).1 = .timeout) (filterLoop g f M n s w).2.2 := by
  induction n with
  | zero => exact fun s w => Lapse.refl nofun w
  | succ n ih =>
    intro s w
    have h1 := h.next s w
    unfold filterLoop
    revert h1
    generalize M.next s w = z
    intro h1
    obtain ⟨r, s1, w1⟩ := z
    cases r with
    | item kv =>
      have h2 := hf w1 kv
      simp only
      revert h2
      generalize f w1 kv = z
      intro h2
      obtain ⟨v, w2⟩ := z
      have h12 : Lapse w False w2 := h1.trans h2
      cases v with
      | pass => exact h12.calm nofun
      | drop => exact Lapse.trans (h12.upd (Q := False) nofun _ _) (ih s1 _)
      | seekTo k =>
        have h3 := h.seek s1 k (w2.upd g fun c => { c with seek := c.seek + 1 })
        simp only
        revert h3
        generalize M.seek s1 k (w2.upd g fun c => { c with seek := c.seek + 1 }) = z
        intro h3
        obtain ⟨b, s3, w3⟩ := z
        have h13 : Lapse w False w3 := Lapse.trans (h12.upd (Q := False) nofun g _) h3
        cases b with
        | true => exact Lapse.trans (h13.upd (Q := False) nofun _ _) (ih s3 _)
        | false => exact h13.calm nofun
      | stop => exact h12.calm nofun
      | fault e => exact h12.calm nofun
    | done => exact h1.calm nofun
    | timeout => exact ⟨h1.kept, h1.deadline, fun _ => h1.late rfl⟩
    | fault e => exact h1.calm nofun

theorem clocked_filter {M : Mach} (h : Clocked M) (g : Stage) {f : FilterFn} (hf : ∀ w kv, Lapse w False (f w kv).2) :
    Clocked (filterM g f M) where
  next s w := clocked_filterLoop h g hf _ s w
  seek := h.seek

theorem clocked_ljoinLoop (merge : MergeFn) {L R : Mach} (hR : Clocked R) (kv : KV) (n : Nat) :
    ∀ s w, Lapse w ((ljoinLoop merge L R kv n s w).1 = .timeout) (ljoinLoop merge L R kv n s w).2.2 := by
  induction n with
  | zero => exact fun s w => Lapse.refl nofun w
  | succ n ih =>
    intro s w
    unfold ljoinLoop
    split
    · exact Lapse.refl nofun w
    · have h1 : Lapse w ((ljoinFetch L R s w).1 = .timeout) (ljoinFetch L R s w).2.2 := by
        unfold ljoinFetch
        split
        · exact Lapse.refl nofun w
        · have this := hR.next s.right w
          revert this
          generalize R.next s.right w = z
          intro this
          obtain ⟨r, sr, w1⟩ := z
          cases r <;> exact ⟨this.kept, this.deadline, fun h => by first | exact this.late rfl | cases h⟩
      revert h1
      generalize ljoinFetch L R s w = z
      intro h1
      obtain ⟨r, s1, w1⟩ := z
      cases r with
      | item r =>
        refine Lapse.trans h1 ?_
        show Lapse w1 ((ljoinCompare merge L R kv (ljoinLoop merge L R kv n) r s1 w1).1 = .timeout) (ljoinCompare merge L R kv (ljoinLoop merge L R kv n) r s1 w1).2.2
        unfold ljoinCompare
        split
        · have h2 := hR.seek s1.right kv.1 w1
          revert h2
          generalize R.seek s1.right kv.1 w1 = z
          intro h2
          obtain ⟨b, sr, w2⟩ := z
          cases b with
          | true => exact Lapse.trans (Lapse.upd h2 (Q := False) nofun _ _) (ih _ _)
          | false => exact h2.calm nofun
        · exact Lapse.refl nofun _
        · split <;> exact ⟨⟨rfl, Nat.le_refl _⟩, rfl, nofun⟩
      | done => exact h1.calm nofun
      | timeout => exact ⟨h1.kept, h1.deadline, fun _ => h1.late rfl⟩
      | fault e => exact h1.calm nofun

theorem clocked_ljoin (merge : MergeFn) {L R : Mach} (hL : Clocked L) (hR : Clocked R) : Clocked (ljoinM merge L R) where
  next s w := by
    have h1 := hL.next s.left w
    unfold ljoinM
    simp only
    revert h1
    generalize L.next s.left w = z
    intro h1
    obtain ⟨r, sl, w1⟩ := z
    cases r with
    | item kv => exact Lapse.trans h1 (clocked_ljoinLoop merge hR kv _ _ _)
    | done => exact h1.calm nofun
    | timeout => exact ⟨h1.kept, h1.deadline, fun _ => h1.late rfl⟩
    | fault e => exact h1.calm nofun
  seek s k w := by
    have h1 := hL.seek s.left k w
    unfold ljoinM
    simp only
    revert h1
    generalize L.seek s.left k w = z
    intro h1
    obtain ⟨b, sl, w1⟩ := z
    cases b with
    | false => exact h1.calm nofun
    | true =>
      exact Lapse.trans h1 (hR.seek s.right k w1)

theorem clocked_rmFetch (R : Src) (s : View × Table) (k : Bytes) (w : World) : Lapse w False (rmFetch R s k w).2.2 := by
  have h1 := (clocked_cur R.rows R.seekFails).seek s k w
  unfold rmFetch
  revert h1
  generalize R.mach.seek s k w = z
  intro h1
  obtain ⟨b, s1, w1⟩ := z
  cases b with
  | false => exact h1.calm nofun
  | true =>
    have h2 := (clocked_cur R.rows R.seekFails).next s1 (w1.upd .removeStrict fun c => { c with seek := c.seek + 1 })
    simp only
    revert h2
    generalize R.mach.next s1 (w1.upd .removeStrict fun c => { c with seek := c.seek + 1 }) = z
    intro h2
    obtain ⟨r, s2, w2⟩ := z
    have h12 : Lapse w False w2 :=
      Lapse.calm (Lapse.trans (Lapse.upd h1 (Q := False) nofun .removeStrict _) h2) nofun
    cases r <;> exact h12.calm nofun

theorem clocked_rmAdvance (k : Bytes) (n : Nat) : ∀ e s w, Lapse w False (rmAdvance k n e s w).2.2 := by
  induction n with
  | zero => exact fun e s w => Lapse.refl nofun w
  | succ n ih =>
    intro e s w
    unfold rmAdvance
    split
    · exact Lapse.refl nofun w
    · split
      · exact Lapse.refl nofun w
      · exact Lapse.refl nofun w
      · have h1 := clocked_rmFetch e.src s k w
        revert h1
        generalize rmFetch e.src s k w = z
        intro h1
        obtain ⟨o, s1, w1⟩ := z
        cases o with
        | some k' => exact Lapse.trans h1 (ih _ _ _)
        | none => exact h1.calm nofun

theorem clocked_rmEntryMatch (V : View) (k : Bytes) (e : RmEntry) (w : World) : Lapse w False (rmEntryMatch V k e w).2.2 := by
  unfold rmEntryMatch
  split
  · exact clocked_rmAdvance _ _ _ _ _
  · have h1 := clocked_rmFetch e.src (e.src.mach.start V) k w
    revert h1
    generalize rmFetch e.src (e.src.mach.start V) k w = z
    intro h1
    obtain ⟨o, s1, w1⟩ := z
    cases o with
    | some k' => exact Lapse.trans h1 (clocked_rmAdvance _ _ _ _ _)
    | none => exact h1.calm nofun

theorem clocked_matchKey (V : View) (k : Bytes) (es : List RmEntry) : ∀ seen w, Lapse w False (matchKey V k seen es w).2.2 := by
  induction es with
  | nil => exact fun seen w => Lapse.refl nofun w
  | cons e es ih =>
    intro seen w
    have h1 := clocked_rmEntryMatch V k e w
    unfold matchKey
    revert h1
    generalize rmEntryMatch V k e w = z
    intro h1
    obtain ⟨o, e1, w1⟩ := z
    match o with
    | some true => exact ⟨h1.kept, h1.deadline, nofun⟩
    | some false => exact Lapse.trans h1 (ih _ _)
    | none => exact h1.calm nofun

theorem clocked_removeLoop {M : Mach} (h : Clocked M) (n : Nat) : ∀ s w, Lapse w ((removeLoop M n s w).1 = .timeout) (removeLoop M n s w).2.2 := by
  induction n with
  | zero => exact fun s w => Lapse.refl nofun w
  | succ n ih =>
    intro s w
    have h1 := h.next s.up w
    unfold removeLoop
    revert h1
    generalize M.next s.up w = z
    intro h1
    obtain ⟨r, su, w1⟩ := z
    cases r with
    | item kv =>
      have h2 := clocked_matchKey s.view kv.1 s.entries [] w1
      simp only
      revert h2
      generalize matchKey s.view kv.1 [] s.entries w1 = z
      intro h2
      obtain ⟨o, es, w2⟩ := z
      have h12 : Lapse w False w2 := Lapse.trans h1 h2
      match o with
      | some true => exact Lapse.trans h12 (ih _ _)
      | some false => exact h12.calm nofun
      | none => exact h12.calm nofun
    | done => exact h1.calm nofun
    | timeout => exact ⟨h1.kept, h1.deadline, fun _ => h1.late rfl⟩
    | fault e => exact h1.calm nofun

theorem clocked_rmSeekAll (k : Bytes) (es : List RmEntry) : ∀ w, Lapse w False (rmSeekAll k es w).2 := by
  induction es with
  | nil => exact fun w => Lapse.refl nofun w
  | cons e es ih =>
    intro w
    unfold rmSeekAll
    have h1 : Lapse w False (rmEntrySeek k e w).2 := by
      unfold rmEntrySeek
      split
      · exact Lapse.refl nofun w
      · rename_i s _
        split
        · have h1 := clocked_rmFetch e.src s k w
          revert h1
          generalize rmFetch e.src s k w = z
          intro h1
          obtain ⟨o, s1, w1⟩ := z
          cases o <;> exact h1.calm nofun
        · exact Lapse.refl nofun w
    exact Lapse.trans h1 (ih _)

theorem clocked_remove (rms : List Src) {M : Mach} (h : Clocked M) : Clocked (removeM rms M) where
  next s w := clocked_removeLoop h _ s w
  seek s k w := by
    have h1 := clocked_rmSeekAll k s.entries w
    unfold removeM
    simp only
    revert h1
    generalize rmSeekAll k s.entries w = z
    intro h1
    obtain ⟨es, w1⟩ := z
    exact Lapse.trans h1 (h.seek s.up k w1)

theorem clocked_pure (f : KV → Verdict) (w : World) (kv : KV) : Lapse w False (pureF f w kv).2 := Lapse.refl nofun w

theorem clocked_withTimeout (q : Query) {M : Mach} (h : Clocked M) : Clocked (withTimeout q M) := by
  unfold withTimeout
  split
  · exact clocked_timeout h
  · exact h

theorem clocked_withFilters (fs : List Filt) : ∀ {M : Mach}, Clocked M → Clocked (withFilters fs M) := by
  induction fs with
  | nil => exact fun h => h
  | cons f fs ih =>
    intro M h
    exact ih (clocked_filter h f.1 fun w kv => clocked_pure f.2 w kv)

theorem clocked_withRemove (rm : Option (List Src)) {M : Mach} (h : Clocked M) : Clocked (withRemove rm M) := by
  unfold withRemove
  split
  · exact clocked_remove _ h
  · exact h

theorem clocked_withFill (fill : Option Src) {M : Mach} (h : Clocked M) : Clocked (withFill fill M) := by
  unfold withFill
  split
  · exact clocked_ljoin _ h (clocked_cur _ _)
  · exact h

theorem clocked_withTimes (q : Query) (rm : Option (List Src)) (fill : Option Src) {M : Mach} (h : Clocked M) :
    Clocked (withTimes q rm fill M) := by
  unfold withTimes
  split
  · exact clocked_filter (clocked_withFill _ (clocked_withRemove _ (clocked_filter h _ (clocked_pure _)))) _ (clocked_pure _)
  · exact clocked_withFill _ h

theorem clocked_withOffset (q : Query) {M : Mach} (h : Clocked M) : Clocked (withOffset q M) := by
  unfold withOffset
  split
  · refine clocked_filter h _ fun w kv => ?_
    unfold filterOffset
    split <;> exact ⟨⟨rfl, Nat.le_refl _⟩, rfl, nofun⟩
  · exact h

/-- The sources of a query only read the clock. -/
structure ClockedSources (S : Sources) : Prop where
  source : Clocked S.source
  index : Clocked S.index

theorem clocked_assemble (q : Query) {S : Sources} (h : ClockedSources S) (p : Plan) :
    Clocked (assemble q S p).source ∧ Clocked (assemble q S p).index :=
  ⟨clocked_withOffset q (clocked_withTimes q _ _ (clocked_withFilters _ (clocked_withTimeout q h.source))),
    clocked_withFilters _ (clocked_withTimeout q h.index)⟩

theorem clocked_directLoop {M : Mach} (h : Clocked M) (n : Nat) : ∀ s w, Lapse w ((directLoop M n s w).1 = .timeout) (directLoop M n s w).2.2 := by
  induction n with
  | zero => exact fun s w => Lapse.refl nofun w
  | succ n ih =>
    intro s w
    have h1 := h.next s w
    unfold directLoop
    revert h1
    generalize M.next s w = z
    intro h1
    obtain ⟨r, s1, w1⟩ := z
    cases r with
    | item kv =>
      simp only
      split
      · exact h1.calm nofun
      · exact Lapse.trans h1 (ih _ _)
      · exact h1.calm nofun
    | done => exact h1.calm nofun
    | timeout => exact ⟨h1.kept, h1.deadline, fun _ => h1.late rfl⟩
    | fault e => exact h1.calm nofun

theorem clocked_indirectLoop (q : Query) (tb : UInt8) {I M : Mach} (hI : Clocked I) (hM : Clocked M) (n : Nat) :
    ∀ i m w, Lapse w ((indirectLoop q tb I M n i m w).1 = .timeout) (indirectLoop q tb I M n i m w).2.2 := by
  induction n with
  | zero => intro i m w; cases m <;> exact Lapse.refl nofun w
  | succ n ih =>
    intro i m w
    cases m with
    | some s =>
      have h1 := clocked_directLoop hM (M.size s + 1) s w
      unfold indirectLoop
      revert h1
      generalize directLoop M (M.size s + 1) s w = z
      intro h1
      obtain ⟨r, s1, w1⟩ := z
      cases r with
      | failure => exact Lapse.trans h1 (ih _ _ _)
      | entry e => exact h1.calm nofun
      | timeout => exact ⟨h1.kept, h1.deadline, fun _ => h1.late rfl⟩
      | fault e => exact h1.calm nofun
    | none =>
      have h1 := hI.next i w
      unfold indirectLoop
      revert h1
      generalize I.next i w = z
      intro h1
      obtain ⟨r, s1, w1⟩ := z
      cases r with
      | item kv =>
        simp only
        split
        · exact Lapse.trans h1 (ih _ _ _)
        · exact Lapse.trans h1 (ih _ _ _)
        · exact h1.calm nofun
        · exact h1.calm nofun
      | done => exact h1.calm nofun
      | timeout => exact ⟨h1.kept, h1.deadline, fun _ => h1.late rfl⟩
      | fault e => exact h1.calm nofun

theorem kept_armTimer (l : Limits) (w : World) : Kept w (armTimer l w) := by
  unfold armTimer setDeadline
  split
  · split
    · exact ⟨rfl, Nat.le_succ _⟩
    · exact Kept.refl w
  · exact Kept.refl w

theorem clocked_queryNext (q : Query) {B : Built} (hS : Clocked B.source) (hI : Clocked B.index) (s : QSt B) (w : World) :
    Kept w (queryNext q B s w).2.2 ∧
    Lapse (armTimer q.lim w) ((queryNext q B s w).1 = .timeout) (queryNext q B s w).2.2 := by
  suffices h : Lapse (armTimer q.lim w) ((queryNext q B s w).1 = .timeout) (queryNext q B s w).2.2 from
    ⟨(kept_armTimer q.lim w).trans h.kept, h⟩
  unfold queryNext
  cases s with
  | direct s =>
    have h2 := clocked_directLoop hS (B.source.size s + 1) s (armTimer q.lim w)
    exact ⟨h2.kept, h2.deadline, h2.late⟩
  | indirect tb i m =>
    have h2 := clocked_indirectLoop q tb hI hS (2 * B.index.size i + 3) i m (armTimer q.lim w)
    exact ⟨h2.kept, h2.deadline, h2.late⟩

end Verif
