import Verif.Lemmas.QueryRun

/-!
# A machine with a time limit and the same machine without one

`Fwd` says that a machine without time limit makes progress; `Twin` says that a machine with a time
limit does what its untimed twin does, except for timeouts, after which the untimed twin would still
do the same.  Nothing is assumed about the rows, and faults are related as well.
-/

namespace Verif
open Spec

/-- Only the counters and the offset may have changed. -/
structure Still (v v' : World) : Prop where
  clock : v'.clock = v.clock
  deadline : v'.deadline = v.deadline
  armed : v'.armed = v.armed
  tick : v'.tick = v.tick

theorem Still.refl (v : World) : Still v v := ⟨rfl, rfl, rfl, rfl⟩

theorem Still.trans {a b c : World} (h1 : Still a b) (h2 : Still b c) : Still a c :=
  ⟨h2.clock.trans h1.clock, h2.deadline.trans h1.deadline, h2.armed.trans h1.armed,
    h2.tick.trans h1.tick⟩

theorem Still.upd {a b : World} (h : Still a b) (g : Stage) (f : Stats → Stats) : Still a (b.upd g f) :=
  ⟨h.clock, h.deadline, h.armed, h.tick⟩

theorem Still.time {a b : World} (h : Still a b) : TimeFrame a b :=
  ⟨h.clock, h.deadline, h.armed, Nat.le_of_eq h.tick.symm⟩

theorem Still.calm {a b : World} (h : Still a b) : Calm a b := fun i h1 h2 => by
  have := h.tick
  exact absurd h1 (by omega)

/-- Same result, same state, same remaining offset. -/
def SameO {α σ : Type} (x y : α × σ × World) : Prop :=
  x.1 = y.1 ∧ x.2.1 = y.2.1 ∧ x.2.2.offset = y.2.2.offset

theorem SameO.refl {α σ : Type} (x : α × σ × World) : SameO x x := ⟨rfl, rfl, rfl⟩

theorem SameO.symm {α σ : Type} {x y : α × σ × World} (h : SameO x y) : SameO y x :=
  ⟨h.1.symm, h.2.1.symm, h.2.2.symm⟩

theorem SameO.trans {α σ : Type} {x y z : α × σ × World} (h : SameO x y) (h2 : SameO y z) : SameO x z :=
  ⟨h.1.trans h2.1, h.2.1.trans h2.2.1, h.2.2.trans h2.2.2⟩

/-- A machine without time limit that makes progress: every row delivered makes the rest smaller, and
seeks beyond the last row (`lo`) do not make it larger.  Of the world, only the offset has an
influence. -/
structure Fwd (sk : Bool) (U : Mach) (P : Bytes → Prop) (I : U.St → Bytes → Prop) : Prop where
  next : ∀ {u lo} v, I u lo → Still v (U.next u v).2.2 ∧ (U.next u v).1 ≠ .timeout ∧
    (U.next u v).1 ≠ .fault .diverge ∧ (∃ lo', I (U.next u v).2.1 lo') ∧
    U.size (U.next u v).2.1 ≤ U.size u ∧
    ∀ kv, (U.next u v).1 = .item kv → P kv.1 ∧ I (U.next u v).2.1 kv.1 ∧
      U.size (U.next u v).2.1 < U.size u
  seek : sk = true → ∀ {u lo} k v, I u lo → lexLt lo k = true → Still v (U.seek u k v).2.2 ∧
    I (U.seek u k v).2.1 k ∧ U.size (U.seek u k v).2.1 ≤ U.size u
  steady : ∀ {u lo v v'}, I u lo → v.offset = v'.offset → SameO (U.next u v) (U.next u v')
  steadySeek : sk = true → ∀ {u lo} k {v v'}, I u lo → lexLt lo k = true → v.offset = v'.offset →
    SameO (U.seek u k v) (U.seek u k v')

/-- A filter function that terminates, seeks only forward (and only with `sk`), and depends only on the
row and the offset. -/
structure OkF (sk : Bool) (P : Bytes → Prop) (f : FilterFn) : Prop where
  still : ∀ v kv, Still v (f v kv).2
  nodiv : ∀ v kv, P kv.1 → (f v kv).1 ≠ .fault .diverge
  fwd : ∀ v kv k, P kv.1 → (f v kv).1 = .seekTo k → sk = true ∧ lexLt kv.1 k = true
  steady : ∀ v v' kv, v.offset = v'.offset →
    (f v kv).1 = (f v' kv).1 ∧ (f v kv).2.offset = (f v' kv).2.offset

/-- The machine `T` with time limit does what `U` does, up to timeouts. -/
structure Twin (sk : Bool) (T U : Mach) (I : U.St → Bytes → Prop) (R : T.St → U.St → Prop) : Prop where
  size : ∀ {s u}, R s u → T.size s = U.size u
  next : ∀ {s u lo} w, R s u → I u lo → w.armed = true →
    TimeFrame w (T.next s w).2.2 ∧
    (((T.next s w).1 = .timeout ∧ Expired w (T.next s w).2.2 ∧ ∃ u', R (T.next s w).2.1 u' ∧
        (∃ lo', I u' lo') ∧ U.size u' ≤ U.size u ∧
        ∀ v, v.offset = w.offset → ∃ v', v'.offset = (T.next s w).2.2.offset ∧
          SameO (U.next u v) (U.next u' v')) ∨
     (Calm w (T.next s w).2.2 ∧ ∀ v, v.offset = w.offset → (T.next s w).1 = (U.next u v).1 ∧
        R (T.next s w).2.1 (U.next u v).2.1 ∧ (T.next s w).2.2.offset = (U.next u v).2.2.offset))
  seek : sk = true → ∀ {s u lo} k w v, R s u → I u lo → lexLt lo k = true → v.offset = w.offset →
    (T.seek s k w).1 = (U.seek u k v).1 ∧ R (T.seek s k w).2.1 (U.seek u k v).2.1 ∧
    (T.seek s k w).2.2.offset = (U.seek u k v).2.2.offset ∧ Still w (T.seek s k w).2.2

/-! ## Filters -/

theorem filterLoop_fwd {sk : Bool} {U : Mach} {P : Bytes → Prop} {I : U.St → Bytes → Prop} {g : Stage}
    {f : FilterFn} (hU : Fwd sk U P I) (hf : OkF sk P f) {n : Nat} :
    ∀ {u lo} v, I u lo → U.size u < n →
      let x := filterLoop g f U n u v
      Still v x.2.2 ∧ x.1 ≠ .timeout ∧ x.1 ≠ .fault .diverge ∧ (∃ lo', I x.2.1 lo') ∧
      U.size x.2.1 ≤ U.size u ∧
      ∀ kv, x.1 = .item kv → P kv.1 ∧ I x.2.1 kv.1 ∧ U.size x.2.1 < U.size u := by
  induction n with
  | zero => intro u lo v _ h; omega
  | succ n ih =>
    intro u lo v hI hn
    have h := hU.next v hI
    simp only [filterLoop]
    rcases hm : U.next u v with ⟨r, u', v'⟩
    rw [hm] at h
    obtain ⟨h1, h2, h3, h4, h5, h6⟩ := h
    simp only at h1 h2 h3 h4 h5 h6
    cases r with
    | item kv =>
      obtain ⟨hP, hI', hlt⟩ := h6 kv rfl
      have hst := hf.still v' kv
      have hnd := hf.nodiv v' kv hP
      have hfw := hf.fwd v' kv
      simp only
      rcases hv : f v' kv with ⟨d, v2⟩
      rw [hv] at hst hnd hfw
      simp only at hst hnd hfw
      cases d with
      | pass => exact ⟨h1.trans hst, by simp, by simp, ⟨_, hI'⟩, h5, fun kv' he => by
          cases he; exact ⟨hP, hI', hlt⟩⟩
      | drop =>
        obtain ⟨a, b, c, d, e, k⟩ := ih (v2.upd g fun c => { c with filtered := c.filtered + 1 }) hI'
          (by omega)
        exact ⟨(h1.trans (hst.upd _ _)).trans a, b, c, d, Nat.le_trans e h5, fun kv' he =>
          ⟨(k kv' he).1, (k kv' he).2.1, Nat.lt_of_lt_of_le (k kv' he).2.2 h5⟩⟩
      | seekTo k =>
        obtain ⟨hsk, hlt'⟩ := hfw k hP rfl
        have hs := hU.seek hsk k (v2.upd g fun c => { c with seek := c.seek + 1 }) hI' hlt'
        simp only
        rcases hse : U.seek u' k (v2.upd g fun c => { c with seek := c.seek + 1 }) with ⟨ok, u3, v3⟩
        rw [hse] at hs
        obtain ⟨s1, s2, s3⟩ := hs
        simp only at s1 s2 s3
        have h13 : Still v v3 := (h1.trans (hst.upd _ _)).trans s1
        cases ok with
        | false => exact ⟨h13, by simp, by simp, ⟨_, s2⟩, by simp only; omega, fun _ he => by cases he⟩
        | true =>
          obtain ⟨a, b, c, d, e, k⟩ := ih (v3.upd g fun c => { c with filtered := c.filtered + 1 }) s2
            (by omega)
          exact ⟨(h13.upd _ _).trans a, b, c, d, Nat.le_trans e (Nat.le_trans s3 h5), fun kv' he =>
            ⟨(k kv' he).1, (k kv' he).2.1, Nat.lt_of_lt_of_le (k kv' he).2.2 (Nat.le_trans s3 h5)⟩⟩
      | stop => exact ⟨h1.trans hst, by simp, by simp, ⟨_, hI'⟩, h5, fun _ he => by cases he⟩
      | fault e =>
        refine ⟨h1.trans hst, by simp, ?_, ⟨_, hI'⟩, h5, fun _ he => by cases he⟩
        intro he; cases he; exact hnd rfl
    | done => exact ⟨h1, h2, h3, h4, h5, fun _ he => by cases he⟩
    | timeout => exact absurd rfl h2
    | fault e => exact ⟨h1, h2, h3, h4, h5, fun _ he => by cases he⟩

theorem filterLoop_same {sk : Bool} {U : Mach} {P : Bytes → Prop} {I : U.St → Bytes → Prop} {g : Stage}
    {f : FilterFn} (hU : Fwd sk U P I) (hf : OkF sk P f) {n : Nat} :
    ∀ {m : Nat} {u u' : U.St} {lo lo' : Bytes} {v v' : World}, I u lo → I u' lo' →
      SameO (U.next u v) (U.next u' v') → U.size u < n → U.size u' < m →
      SameO (filterLoop g f U n u v) (filterLoop g f U m u' v') := by
  induction n with
  | zero => intros; omega
  | succ n ih =>
    intro m u u' lo lo' v v' hI hI' hs hn hm
    obtain ⟨m, rfl⟩ : ∃ k, m = k + 1 := ⟨m - 1, by omega⟩
    have h := hU.next v hI
    have h' := hU.next v' hI'
    simp only [filterLoop]
    rcases e1 : U.next u v with ⟨r, x, a⟩
    rcases e2 : U.next u' v' with ⟨r', x', b⟩
    rw [e1, e2] at hs
    obtain ⟨rfl, rfl, ho⟩ := hs
    rw [e1] at h
    rw [e2] at h'
    simp only at ho
    cases r with
    | item kv =>
      obtain ⟨hP, hIx, hlt⟩ := h.2.2.2.2.2 kv rfl
      obtain ⟨-, -, hlt'⟩ := h'.2.2.2.2.2 kv rfl
      simp only at hIx hlt hlt'
      obtain ⟨f1, f2⟩ := hf.steady a b kv ho
      have hfw := hf.fwd a kv
      simp only
      rcases v1 : f a kv with ⟨d, a2⟩
      rcases v2 : f b kv with ⟨d', b2⟩
      rw [v1, v2] at f1 f2
      rw [v1] at hfw
      simp only at f1 f2 hfw
      subst f1
      cases d with
      | pass => exact ⟨rfl, rfl, f2⟩
      | drop => exact ih hIx hIx (hU.steady hIx f2) (by omega) (by omega)
      | seekTo k =>
        obtain ⟨hsk, hltk⟩ := hfw k hP rfl
        have s1 := hU.seek hsk k (a2.upd g fun c => { c with seek := c.seek + 1 }) hIx hltk
        have s2 := hU.steadySeek hsk k hIx hltk (v := a2.upd g fun c => { c with seek := c.seek + 1 })
          (v' := b2.upd g fun c => { c with seek := c.seek + 1 }) f2
        simp only
        rcases se1 : U.seek x k (a2.upd g fun c => { c with seek := c.seek + 1 }) with ⟨ok, x3, a3⟩
        rcases se2 : U.seek x k (b2.upd g fun c => { c with seek := c.seek + 1 }) with ⟨ok', x3', b3⟩
        rw [se1, se2] at s2
        rw [se1] at s1
        obtain ⟨rfl, rfl, h3⟩ := s2
        obtain ⟨-, s1, s1'⟩ := s1
        simp only at h3 s1 s1'
        cases ok with
        | false => exact ⟨rfl, rfl, h3⟩
        | true => exact ih s1 s1 (hU.steady s1 h3) (by first | omega | (simp only; omega)) (by first | omega | (simp only; omega))
      | stop => exact ⟨rfl, rfl, f2⟩
      | fault e => exact ⟨rfl, rfl, f2⟩
    | done => exact ⟨rfl, rfl, ho⟩
    | timeout => exact ⟨rfl, rfl, ho⟩
    | fault e => exact ⟨rfl, rfl, ho⟩

theorem fwd_filter {sk : Bool} {U : Mach} {P : Bytes → Prop} {I : U.St → Bytes → Prop} {g : Stage}
    {f : FilterFn} (hU : Fwd sk U P I) (hf : OkF sk P f) : Fwd sk (filterM g f U) P I where
  next v hI := filterLoop_fwd hU hf v hI (Nat.lt_succ_self _)
  seek := hU.seek
  steady hI h := filterLoop_same hU hf hI hI (hU.steady hI h) (Nat.lt_succ_self _) (Nat.lt_succ_self _)
  steadySeek := hU.steadySeek

theorem twin_filterLoop {sk : Bool} {T U : Mach} {P : Bytes → Prop} {I : U.St → Bytes → Prop}
    {R : T.St → U.St → Prop} {g : Stage} {f : FilterFn} (hU : Fwd sk U P I) (hf : OkF sk P f)
    (hT : Twin sk T U I R) {n : Nat} :
    ∀ {s u lo} w, R s u → I u lo → w.armed = true → U.size u < n →
      let x := filterLoop g f T n s w
      TimeFrame w x.2.2 ∧
      ((x.1 = .timeout ∧ Expired w x.2.2 ∧ ∃ u', R x.2.1 u' ∧ (∃ lo', I u' lo') ∧ U.size u' ≤ U.size u ∧
          ∀ v, v.offset = w.offset → ∃ v', v'.offset = x.2.2.offset ∧
            SameO ((filterM g f U).next u v) ((filterM g f U).next u' v')) ∨
       (Calm w x.2.2 ∧ ∀ v, v.offset = w.offset → x.1 = ((filterM g f U).next u v).1 ∧
          R x.2.1 ((filterM g f U).next u v).2.1 ∧ x.2.2.offset = ((filterM g f U).next u v).2.2.offset)) := by
  induction n with
  | zero => intros; omega
  | succ n ih =>
    intro s u lo w hR hI ha hn
    have h := hT.next w hR hI ha
    simp only [filterLoop]
    rcases hm : T.next s w with ⟨r, s', w'⟩
    rw [hm] at h
    obtain ⟨hfr, h⟩ := h
    simp only at hfr h
    rcases h with ⟨rfl, hex, u', hR', ⟨lo', hI'⟩, hsz, hv⟩ | ⟨hc, hv⟩
    · refine ⟨hfr, .inl ⟨rfl, hex, u', hR', ⟨lo', hI'⟩, hsz, fun v hvo => ?_⟩⟩
      obtain ⟨v', h1, h2⟩ := hv v hvo
      exact ⟨v', h1, filterLoop_same hU hf hI hI' h2 (Nat.lt_succ_self _) (Nat.lt_succ_self _)⟩
    · -- one step of the untimed loop, for any fuel and world
      cases r with
      | done =>
        refine ⟨hfr, .inr ⟨hc, fun v hvo => ?_⟩⟩
        have := hv v hvo
        simp only [filterM, filterLoop]
        rcases hu : U.next u v with ⟨r, u', v'⟩
        rw [hu] at this
        obtain ⟨rfl, h2, h3⟩ := this
        exact ⟨rfl, h2, h3⟩
      | timeout =>
        have := hv { w with offset := w.offset } rfl
        exact absurd this.1.symm (hU.next _ hI).2.1
      | fault e =>
        refine ⟨hfr, .inr ⟨hc, fun v hvo => ?_⟩⟩
        have := hv v hvo
        simp only [filterM, filterLoop]
        rcases hu : U.next u v with ⟨r, u', v'⟩
        rw [hu] at this
        obtain ⟨rfl, h2, h3⟩ := this
        exact ⟨rfl, h2, h3⟩
      | item kv =>
        -- the row and the state reached do not depend on the world
        obtain ⟨x, hRx, hIx, hPx, hltx, hstep⟩ : ∃ x, R s' x ∧ I x kv.1 ∧ P kv.1 ∧ U.size x < U.size u ∧
            ∀ v, v.offset = w.offset → ∃ v', U.next u v = (.item kv, x, v') ∧ v'.offset = w'.offset := by
          have h0 := hv w rfl
          have hp := (hU.next w hI).2.2.2.2.2 kv h0.1.symm
          refine ⟨_, h0.2.1, hp.2.1, hp.1, hp.2.2, fun v hvo => ?_⟩
          have h1 := hv v hvo
          have h2 := hU.steady (v := v) (v' := w) hI hvo
          rcases hu : U.next u v with ⟨r, u', v'⟩
          rw [hu] at h1 h2
          obtain ⟨rfl, -, h3⟩ := h1
          exact ⟨v', by rw [← h2.2.1], h3.symm⟩
        have hst := hf.still w' kv
        have hfw := hf.fwd w' kv
        have hsd := fun v' h => hf.steady w' v' kv h
        simp only
        rcases hd : f w' kv with ⟨d, w2⟩
        rw [hd] at hst hfw hsd
        simp only at hst hfw hsd
        have hfr2 : TimeFrame w w2 := hfr.trans hst.time
        have hc2 : Calm w w2 := hfr.calm hc hst.calm
        -- what the untimed loop does with this row
        have hun : ∀ v, v.offset = w.offset → ∃ v2, v2.offset = w2.offset ∧
            (filterM g f U).next u v =
              (match d with
                | .pass => (.item kv, x, v2)
                | .drop => filterLoop g f U (U.size u) x (v2.upd g fun c => { c with filtered := c.filtered + 1 })
                | .seekTo k =>
                  match U.seek x k (v2.upd g fun c => { c with seek := c.seek + 1 }) with
                  | (true, s, w) =>
                    filterLoop g f U (U.size u) s (w.upd g fun c => { c with filtered := c.filtered + 1 })
                  | (false, s, w) => (.done, s, w)
                | .stop => (.done, x, v2)
                | .fault e => (.fault e, x, v2)) := by
          intro v hvo
          obtain ⟨v', h1, h2⟩ := hstep v hvo
          have h3 := hsd v' h2.symm
          refine ⟨(f v' kv).2, h3.2.symm, ?_⟩
          simp only [filterM, filterLoop, h1]
          rcases hd' : f v' kv with ⟨d', v2⟩
          rw [hd'] at h3
          obtain ⟨rfl, -⟩ := h3
          cases d <;> rfl
        cases d with
        | pass =>
          refine ⟨hfr2, .inr ⟨hc2, fun v hvo => ?_⟩⟩
          obtain ⟨v2, h1, h2⟩ := hun v hvo
          rw [h2]
          exact ⟨rfl, hRx, h1.symm⟩
        | stop =>
          refine ⟨hfr2, .inr ⟨hc2, fun v hvo => ?_⟩⟩
          obtain ⟨v2, h1, h2⟩ := hun v hvo
          rw [h2]
          exact ⟨rfl, hRx, h1.symm⟩
        | fault e =>
          refine ⟨hfr2, .inr ⟨hc2, fun v hvo => ?_⟩⟩
          obtain ⟨v2, h1, h2⟩ := hun v hvo
          rw [h2]
          exact ⟨rfl, hRx, h1.symm⟩
        | drop =>
          have ih := ih (w2.upd g fun c => { c with filtered := c.filtered + 1 }) hRx hIx
            (hfr2.armed.trans ha) (by omega)
          obtain ⟨hfr3, ih⟩ := ih
          have hfr3' : TimeFrame w (w2.upd g fun c => { c with filtered := c.filtered + 1 }) :=
            ⟨hfr2.clock, hfr2.deadline, hfr2.armed, hfr2.tick⟩
          refine ⟨hfr3'.trans hfr3, ?_⟩
          have heq : ∀ v v2 : World, v2.offset = w2.offset → (filterM g f U).next u v =
              filterLoop g f U (U.size u) x (v2.upd g fun c => { c with filtered := c.filtered + 1 }) →
              SameO ((filterM g f U).next u v) ((filterM g f U).next x
                (v2.upd g fun c => { c with filtered := c.filtered + 1 })) := fun v v2 _ h => by
            rw [h]
            exact filterLoop_same hU hf hIx hIx (hU.steady hIx rfl) hltx (Nat.lt_succ_self _)
          rcases ih with ⟨hr, hex, u', hR', hI', hsz, hv'⟩ | ⟨hc3, hv'⟩
          · refine .inl ⟨hr, hfr3'.expired hc2 hex, u', hR', hI', by omega, fun v hvo => ?_⟩
            obtain ⟨v2, h1, h2⟩ := hun v hvo
            obtain ⟨v3, h3, h4⟩ := hv' (v2.upd g fun c => { c with filtered := c.filtered + 1 }) h1
            exact ⟨v3, h3, (heq v v2 h1 h2).trans h4⟩
          · refine .inr ⟨hfr3'.calm hc2 hc3, fun v hvo => ?_⟩
            obtain ⟨v2, h1, h2⟩ := hun v hvo
            have h3 := hv' (v2.upd g fun c => { c with filtered := c.filtered + 1 }) h1
            have h4 := heq v v2 h1 h2
            rw [h4.1, h4.2.1, h4.2.2]
            exact h3
        | seekTo k =>
          obtain ⟨hsk, hltk⟩ := hfw k hPx rfl
          have hts := hT.seek hsk k (w2.upd g fun c => { c with seek := c.seek + 1 }) 
            (w2.upd g fun c => { c with seek := c.seek + 1 }) hRx hIx hltk rfl
          have hus := hU.seek hsk k (w2.upd g fun c => { c with seek := c.seek + 1 }) hIx hltk
          have hss := fun v' h => hU.steadySeek hsk k (v := w2.upd g fun c => { c with seek := c.seek + 1 })
            (v' := v') hIx hltk h
          simp only
          rcases se1 : T.seek s' k (w2.upd g fun c => { c with seek := c.seek + 1 }) with ⟨ok, s3, w3⟩
          rcases se2 : U.seek x k (w2.upd g fun c => { c with seek := c.seek + 1 }) with ⟨ok', x3, v3⟩
          rw [se1, se2] at hts
          rw [se2] at hus hss
          obtain ⟨rfl, hR3, ho3, hst3⟩ := hts
          obtain ⟨-, hI3, hsz3⟩ := hus
          simp only at hR3 ho3 hst3 hI3 hsz3
          have hfr3 : TimeFrame w w3 := (hfr2.trans ((Still.refl w2).upd _ _).time).trans hst3.time
          have hc3 : Calm w w3 := hfr2.calm hc2 (((Still.refl w2).upd g _).trans hst3).calm
          have hun' : ∀ v, v.offset = w.offset → ∃ v4, v4.offset = w3.offset ∧
              (filterM g f U).next u v =
                (match ok with
                  | true => filterLoop g f U (U.size u) x3 (v4.upd g fun c => { c with filtered := c.filtered + 1 })
                  | false => (.done, x3, v4)) := by
            intro v hvo
            obtain ⟨v2, h1, h2⟩ := hun v hvo
            have h3 := hss (v2.upd g fun c => { c with seek := c.seek + 1 }) h1.symm
            refine ⟨(U.seek x k (v2.upd g fun c => { c with seek := c.seek + 1 })).2.2,
              h3.2.2.symm.trans ho3.symm, ?_⟩
            rw [h2]
            simp only
            rcases se3 : U.seek x k (v2.upd g fun c => { c with seek := c.seek + 1 }) with ⟨ok', x3', v4⟩
            rw [se3] at h3
            obtain ⟨rfl, rfl, -⟩ := h3
            cases ok <;> rfl
          cases ok with
          | false =>
            refine ⟨hfr3, .inr ⟨hc3, fun v hvo => ?_⟩⟩
            obtain ⟨v4, h1, h2⟩ := hun' v hvo
            rw [h2]
            exact ⟨rfl, hR3, h1.symm⟩
          | true =>
            have ih := ih (w3.upd g fun c => { c with filtered := c.filtered + 1 }) hR3 hI3
              (hfr3.armed.trans ha) (by first | omega | (simp only; omega))
            obtain ⟨hfr4, ih⟩ := ih
            have hfr4' : TimeFrame w (w3.upd g fun c => { c with filtered := c.filtered + 1 }) :=
              ⟨hfr3.clock, hfr3.deadline, hfr3.armed, hfr3.tick⟩
            refine ⟨hfr4'.trans hfr4, ?_⟩
            have heq : ∀ v v2 : World, v2.offset = w3.offset → (filterM g f U).next u v =
                filterLoop g f U (U.size u) x3 (v2.upd g fun c => { c with filtered := c.filtered + 1 }) →
                SameO ((filterM g f U).next u v) ((filterM g f U).next x3
                  (v2.upd g fun c => { c with filtered := c.filtered + 1 })) := fun v v2 _ h => by
              rw [h]
              exact filterLoop_same hU hf hI3 hI3 (hU.steady hI3 rfl) (by omega) (Nat.lt_succ_self _)
            rcases ih with ⟨hr, hex, u', hR', hI', hsz, hv'⟩ | ⟨hc4, hv'⟩
            · refine .inl ⟨hr, hfr4'.expired hc3 hex, u', hR', hI', by omega, fun v hvo => ?_⟩
              obtain ⟨v2, h1, h2⟩ := hun' v hvo
              obtain ⟨v3, h3, h4⟩ := hv' (v2.upd g fun c => { c with filtered := c.filtered + 1 }) h1
              exact ⟨v3, h3, (heq v v2 h1 h2).trans h4⟩
            · refine .inr ⟨hfr4'.calm hc3 hc4, fun v hvo => ?_⟩
              obtain ⟨v2, h1, h2⟩ := hun' v hvo
              have h3 := hv' (v2.upd g fun c => { c with filtered := c.filtered + 1 }) h1
              have h4 := heq v v2 h1 h2
              rw [h4.1, h4.2.1, h4.2.2]
              exact h3

theorem twin_filter {sk : Bool} {T U : Mach} {P : Bytes → Prop} {I : U.St → Bytes → Prop}
    {R : T.St → U.St → Prop} {g : Stage} {f : FilterFn} (hU : Fwd sk U P I) (hf : OkF sk P f)
    (hT : Twin sk T U I R) : Twin sk (filterM g f T) (filterM g f U) I R where
  size h := hT.size h
  next w hR hI ha := twin_filterLoop hU hf hT w hR hI ha (by rw [hT.size hR]; exact Nat.lt_succ_self _)
  seek := hT.seek

end Verif
