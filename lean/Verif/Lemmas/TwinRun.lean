import Verif.Lemmas.TwinQuery

/-!
# Whole runs of a query with and without a time limit
-/

namespace Verif
open Spec

/-- Timed and untimed machines for one query: source (`T`, `U`) and index (`Y`, `X`) with their
invariants and relations. -/
structure TwinSet where
  T : Mach
  U : Mach
  Y : Mach
  X : Mach
  P : Bytes → Prop
  PX : Bytes → Prop
  sk : Bool
  ski : Bool
  I : U.St → Bytes → Prop
  J : X.St → Bytes → Prop
  R : T.St → U.St → Prop
  K : Y.St → X.St → Prop
  fU : Fwd sk U P I
  fX : Fwd ski X PX J
  tT : Twin sk T U I R
  tY : Twin ski Y X J K

namespace TwinSet

/-- The source can be opened anywhere. -/
def Op (Z : TwinSet) : Prop := Opens Z.I ∧ ∀ k, Z.R (Z.T.start (.pfx k)) (Z.U.start (.pfx k))

/-- The query with time limits. -/
def bT (Z : TwinSet) (V : View) (ind : Option UInt8) : Built := ⟨Z.T, Z.Y, V, ind⟩

/-- The query without. -/
def bU (Z : TwinSet) (V : View) (ind : Option UInt8) : Built := ⟨Z.U, Z.X, V, ind⟩

/-- Invariant of the untimed query. -/
def QI (Z : TwinSet) {V : View} {ind : Option UInt8} : QSt (Z.bU V ind) → Prop
  | .direct u => ∃ lo, Z.I u lo
  | .indirect _ i m => Z.Op ∧ (∃ lo, Z.J i lo) ∧ LookI Z.I m

/-- Corresponding states. -/
def QR (Z : TwinSet) {V : View} {ind : Option UInt8} : QSt (Z.bT V ind) → QSt (Z.bU V ind) → Prop
  | .direct s, .direct u => Z.R s u
  | .indirect tb y mt, .indirect tb' i m => tb = tb' ∧ Z.K y i ∧ LookR Z.R mt m
  | _, _ => False

theorem sameO_map {α σ τ : Type} (f : σ → τ) {x y : α × σ × World} (h : SameO x y) :
    SameO (x.1, f x.2.1, disarm x.2.2) (y.1, f y.2.1, disarm y.2.2) :=
  ⟨h.1, congrArg f h.2.1, h.2.2⟩

theorem queryNext_direct (q : Query) (B : Built) (s : B.source.St) (w : World) :
    queryNext q B (.direct s) w =
      ((direct B.source s (armTimer q.lim w)).1,
        QSt.direct (direct B.source s (armTimer q.lim w)).2.1,
        disarm (direct B.source s (armTimer q.lim w)).2.2) := rfl

theorem queryNext_indirect (q : Query) (B : Built) (tb : UInt8) (i : B.index.St)
    (m : Option B.source.St) (w : World) :
    queryNext q B (.indirect tb i m) w =
      ((indirect q tb B.index B.source (i, m) (armTimer q.lim w)).1,
        QSt.indirect tb (indirect q tb B.index B.source (i, m) (armTimer q.lim w)).2.1.1
          (indirect q tb B.index B.source (i, m) (armTimer q.lim w)).2.1.2,
        disarm (indirect q tb B.index B.source (i, m) (armTimer q.lim w)).2.2) := rfl

/-- An untimed call keeps the invariant, never reports a timeout and ends. -/
theorem call_fwd (Z : TwinSet) {V : View} {ind : Option UInt8} (q : Query) (u : QSt (Z.bU V ind))
    (v : World) (h : Z.QI u) :
    let x := queryNext q (Z.bU V ind) u v
    Z.QI x.2.1 ∧ x.1 ≠ .timeout ∧
    (x.1 = .fault .diverge → ∃ k val, Z.P k ∧ entryDecode k val = .fault .diverge) := by
  cases u with
  | direct u =>
    obtain ⟨lo, hI⟩ := h
    obtain ⟨-, h2, h3, -, h5⟩ := directLoop_fwd Z.fU (armTimer q.lim v) hI (Nat.lt_succ_self _)
    exact ⟨h3, h2, h5⟩
  | indirect tb i m =>
    obtain ⟨ho, ⟨lo, hJ⟩, hm⟩ := h
    obtain ⟨-, h2, h3, h4, -, h5⟩ := indirectLoop_fwd q tb Z.fX Z.fU ho.1 (armTimer q.lim v) hJ hm
      (rounds_lt _ _)
    exact ⟨⟨ho, h3, h4⟩, h2, h5⟩

/-- Of the world, an untimed call only depends on the offset. -/
theorem call_steady (Z : TwinSet) {V : View} {ind : Option UInt8} (q : Query) (u : QSt (Z.bU V ind))
    {v v' : World} (h : Z.QI u) (hv : v.offset = v'.offset) :
    SameO (queryNext q (Z.bU V ind) u v) (queryNext q (Z.bU V ind) u v') := by
  have hv2 : (armTimer q.lim v).offset = (armTimer q.lim v').offset := by
    rw [armTimer_offset, armTimer_offset, hv]
  cases u with
  | direct u =>
    obtain ⟨lo, hI⟩ := h
    have := directLoop_same Z.fU hI hI (Z.fU.steady hI hv2) (Nat.lt_succ_self _) (Nat.lt_succ_self _)
    exact sameO_map (QSt.direct (B := Z.bU V ind)) this
  | indirect tb i m =>
    obtain ⟨ho, ⟨lo, hJ⟩, hm⟩ := h
    have hs : HeadSame Z.X Z.U i i m m (armTimer q.lim v) (armTimer q.lim v') := by
      cases m with
      | none => exact Z.fX.steady hJ hv2
      | some s =>
        obtain ⟨lo, hI⟩ := hm s rfl
        exact ⟨rfl, directLoop_same Z.fU hI hI (Z.fU.steady hI hv2) (Nat.lt_succ_self _) (Nat.lt_succ_self _)⟩
    have := indirectLoop_same (q := q) (q' := q) (tb := tb) (fun _ => rfl) Z.fX Z.fU ho.1 hJ hJ hm hm hs
      (rounds_lt _ _) (rounds_lt _ _)
    exact sameO_map (fun s => QSt.indirect (B := Z.bU V ind) tb s.1 s.2) this

theorem armTimer_none (w : World) : armTimer {} w = w := rfl

theorem armTimer_clock (l : Limits) (w : World) : (armTimer l w).clock = w.clock := by
  unfold armTimer setDeadline
  split <;> (try split) <;> rfl

/-- A timed call against the untimed one. -/
theorem call_twin (Z : TwinSet) {V : View} {ind : Option UInt8} (q : Query) {s : QSt (Z.bT V ind)}
    {u : QSt (Z.bU V ind)} (l : Limits) (hl : l.active = true) (w : World) (hR : Z.QR s u) (hI : Z.QI u) :
    let x := queryNext { q with lim := l } (Z.bT V ind) s w
    let un := queryNext { q with lim := {} } (Z.bU V ind)
    Timely ⟨l, w, x.2.2, x.1⟩ ∧
    ((x.1 = .timeout ∧ ∃ u', Z.QR x.2.1 u' ∧ Z.QI u' ∧ ∀ v, v.offset = w.offset →
        ∃ v', v'.offset = x.2.2.offset ∧ SameO (un u v) (un u' v')) ∨
     (x.1 ≠ .timeout ∧ ∀ v, v.offset = w.offset → x.1 = (un u v).1 ∧ Z.QR x.2.1 (un u v).2.1 ∧
        x.2.2.offset = (un u v).2.2.offset)) := by
  have ha := armTimer_armed (w := w) hl
  have ho := armTimer_offset l w
  have hck := armTimer_clock l w
  cases s with
  | direct s =>
    cases u with
    | indirect tb i m => exact hR.elim
    | direct u =>
      obtain ⟨lo, hI⟩ := hI
      replace hR : Z.R s u := hR
      have hsz : Z.T.size s = Z.U.size u := Z.tT.size hR
      obtain ⟨hf, h⟩ := twin_direct Z.fU Z.tT (armTimer l w) hR hI ha (n := Z.T.size s + 1) (by omega)
      have tim : ∀ r, (r = QRes.timeout ∧ Expired (armTimer l w) (directLoop Z.T (Z.T.size s + 1) s (armTimer l w)).2.2 ∨
          r ≠ .timeout ∧ Calm (armTimer l w) (directLoop Z.T (Z.T.size s + 1) s (armTimer l w)).2.2) →
          Timely ⟨l, w, disarm (directLoop Z.T (Z.T.size s + 1) s (armTimer l w)).2.2, r⟩ := fun r h =>
        ⟨hf.deadline, hf.clock.trans hck, hf.tick, h⟩
      rcases h with ⟨hr, hex, u', hR', hI', -, hv⟩ | ⟨hc, hv⟩
      · refine ⟨tim _ (.inl ⟨hr, hex⟩), .inl ⟨hr, .direct u', hR', hI', fun v hvo => ?_⟩⟩
        obtain ⟨v', h1, h2⟩ := hv v (hvo.trans ho.symm)
        exact ⟨v', h1, sameO_map (QSt.direct (B := Z.bU V ind)) h2⟩
      · have hne : (directLoop Z.T (Z.T.size s + 1) s (armTimer l w)).1 ≠ .timeout := by
          rw [(hv w ho.symm).1]
          exact (directLoop_fwd Z.fU w hI (Nat.lt_succ_self _)).2.1
        refine ⟨tim _ (.inr ⟨hne, hc⟩), .inr ⟨hne, fun v hvo => ?_⟩⟩
        exact hv v (hvo.trans ho.symm)
  | indirect tb y mt =>
    cases u with
    | direct u => exact hR.elim
    | indirect tb' i m =>
      obtain ⟨rfl, hK, hR⟩ := hR
      obtain ⟨hop, ⟨lo, hJ⟩, hm⟩ := hI
      have hsz : Z.Y.size y = Z.X.size i := Z.tY.size hK
      obtain ⟨hf, h⟩ := twin_indirect (q := { q with lim := l }) (q' := { q with lim := {} }) (tb := tb)
        (fun _ => rfl) Z.fX Z.fU hop.1 Z.tT Z.tY hop.2 (armTimer l w) hK hJ hR hm ha
        (n := 2 * Z.Y.size y + 3) (by rw [hsz]; exact rounds_lt _ _)
      have tim : ∀ r, (r = QRes.timeout ∧ Expired (armTimer l w) (indirectLoop { q with lim := l } tb Z.Y Z.T (2 * Z.Y.size y + 3) y mt (armTimer l w)).2.2 ∨
          r ≠ .timeout ∧ Calm (armTimer l w) (indirectLoop { q with lim := l } tb Z.Y Z.T (2 * Z.Y.size y + 3) y mt (armTimer l w)).2.2) →
          Timely ⟨l, w, disarm (indirectLoop { q with lim := l } tb Z.Y Z.T (2 * Z.Y.size y + 3) y mt (armTimer l w)).2.2, r⟩ :=
        fun r h => ⟨hf.deadline, hf.clock.trans hck, hf.tick, h⟩
      rcases h with ⟨hr, hex, s', hK', hR', hJ', hm', hv⟩ | ⟨hc, hv⟩
      · refine ⟨tim _ (.inl ⟨hr, hex⟩), .inl ⟨hr, .indirect tb s'.1 s'.2, ⟨rfl, hK', hR'⟩, ⟨hop, hJ', hm'⟩,
          fun v hvo => ?_⟩⟩
        obtain ⟨v', h1, h2⟩ := hv v (hvo.trans ho.symm)
        have h3 := sameO_map (fun s : Z.X.St × Option Z.U.St => QSt.indirect (B := Z.bU V ind) tb s.1 s.2) h2
        exact ⟨v', h1, h3⟩
      · have hne : (indirectLoop { q with lim := l } tb Z.Y Z.T (2 * Z.Y.size y + 3) y mt (armTimer l w)).1 ≠ .timeout := by
          rw [(hv w ho.symm).1]
          exact (indirectLoop_fwd _ tb Z.fX Z.fU hop.1 w hJ hm (rounds_lt _ _)).2.1
        refine ⟨tim _ (.inr ⟨hne, hc⟩), .inr ⟨hne, fun v hvo => ?_⟩⟩
        obtain ⟨h1, h2, h3, h4⟩ := hv v (hvo.trans ho.symm)
        exact ⟨h1, ⟨rfl, h2, h3⟩, h4⟩

/-! ## Runs -/

/-- Results of an untimed run depend on the world only through the offset. -/
theorem run_steady (Z : TwinSet) {V : View} {ind : Option UInt8} (q : Query) (ls : List Limits) :
    ∀ {u : QSt (Z.bU V ind)} {v v' : World}, Z.QI u → v.offset = v'.offset →
      (queryRun q (Z.bU V ind) ls u v).map (·.res) = (queryRun q (Z.bU V ind) ls u v').map (·.res) := by
  induction ls with
  | nil => intros; rfl
  | cons l ls ih =>
    intro u v v' hI hv
    obtain ⟨h1, h2, h3⟩ := Z.call_steady { q with lim := l } u hI hv
    have hI' := (Z.call_fwd { q with lim := l } u v hI).1
    simp only [queryRun, List.map_cons]
    rw [h1]
    congr 1
    have := ih (v := (queryNext { q with lim := l } (Z.bU V ind) u v).2.2)
      (v' := (queryNext { q with lim := l } (Z.bU V ind) u v').2.2) hI' h3
    rw [this, h2]

theorem run_head (Z : TwinSet) {V : View} {ind : Option UInt8} (q : Query) (k : Nat)
    {u u' : QSt (Z.bU V ind)} {v v' : World} (hI : Z.QI u)
    (h : SameO (queryNext { q with lim := {} } (Z.bU V ind) u v) (queryNext { q with lim := {} } (Z.bU V ind) u' v')) :
    (queryRun q (Z.bU V ind) (List.replicate k {}) u v).map (·.res) =
      (queryRun q (Z.bU V ind) (List.replicate k {}) u' v').map (·.res) := by
  cases k with
  | zero => rfl
  | succ k =>
    obtain ⟨h1, h2, h3⟩ := h
    have hI' := (Z.call_fwd { q with lim := {} } u v hI).1
    simp only [List.replicate_succ, queryRun, List.map_cons]
    rw [h1]
    congr 1
    rw [Z.run_steady q _ hI' h3, h2]

theorem run_twin (Z : TwinSet) {V : View} {ind : Option UInt8} (q : Query) (ls : List Limits)
    (hl : ∀ l ∈ ls, l.active = true) :
    ∀ {s : QSt (Z.bT V ind)} {u : QSt (Z.bU V ind)} {w v : World}, Z.QR s u → Z.QI u → v.offset = w.offset →
      (∀ c ∈ queryRun q (Z.bT V ind) ls s w, Timely c) ∧
      ∃ k, ((queryRun q (Z.bT V ind) ls s w).map (·.res)).filter (· ≠ .timeout) =
        (queryRun q (Z.bU V ind) (List.replicate k {}) u v).map (·.res) := by
  induction ls with
  | nil => intros; exact ⟨by simp [queryRun], 0, rfl⟩
  | cons l ls ih =>
    intro s u w v hR hI hv
    have ih := @ih fun l h => hl l (List.mem_cons_of_mem _ h)
    obtain ⟨ht, h⟩ := Z.call_twin q l (hl l List.mem_cons_self) w hR hI
    simp only [queryRun, List.map_cons]
    rcases h with ⟨hr, u', hR', hI', hv'⟩ | ⟨hr, hv'⟩
    · obtain ⟨v2, h1, h2⟩ := hv' v hv
      obtain ⟨ha, k, hk⟩ := ih (v := v2) hR' hI' h1
      refine ⟨List.forall_mem_cons.2 ⟨ht, ha⟩, k, ?_⟩
      rw [List.filter_cons_of_neg (by simpa using hr), hk]
      exact (Z.run_head q k hI h2).symm
    · obtain ⟨h1, h2, h3⟩ := hv' v hv
      obtain ⟨ha, k, hk⟩ := ih (v := (queryNext { q with lim := {} } (Z.bU V ind) u v).2.2) h2
        (Z.call_fwd _ u v hI).1 h3.symm
      refine ⟨List.forall_mem_cons.2 ⟨ht, ha⟩, k + 1, ?_⟩
      rw [List.filter_cons_of_pos (by simpa using hr), hk, h1]
      simp only [List.replicate_succ, queryRun, List.map_cons]

/-- An untimed run: no timeouts, and every call ends unless decoding an entry does not. -/
theorem run_fwd (Z : TwinSet) {V : View} {ind : Option UInt8} (q : Query) (ls : List Limits) :
    ∀ {u : QSt (Z.bU V ind)} {v : World}, Z.QI u →
      ∀ c ∈ queryRun q (Z.bU V ind) ls u v, c.res ≠ .timeout ∧
        (c.res = .fault .diverge → ∃ k val, Z.P k ∧ entryDecode k val = .fault .diverge) := by
  induction ls with
  | nil => intro u v _ c hc; simp [queryRun] at hc
  | cons l ls ih =>
    intro u v hI c hc
    obtain ⟨h1, h2, h3⟩ := Z.call_fwd { q with lim := l } u v hI
    simp only [queryRun, List.mem_cons] at hc
    rcases hc with rfl | hc
    · exact ⟨h2, h3⟩
    · exact ih h1 c hc

end TwinSet

/-! ## The queries of `initKind` -/

/-- The machines of a query over plain sources. -/
theorem assembled {q : Query} {p : Plan} (hp : PlanOk p) {T Ti : Table} (hT : Sorted T) (hTi : Sorted Ti)
    (sf sfi : View → Bytes → Bool) (rm : Option (List Src)) (fill : Option Src) {l l0 : Limits}
    (hl : l.active = true) (hl0 : l0.active = false) :
    ∃ Z : TwinSet, Z.P = ViewKeys T (planViews p) ∧
      assemble { q with lim := l } ⟨curM T sf, curM Ti sfi, rm, fill⟩ p = Z.bT p.view p.indirect ∧
      assemble { q with lim := l0 } ⟨curM T sf, curM Ti sfi, rm, fill⟩ p = Z.bU p.view p.indirect ∧
      Z.QI (Z.bU p.view p.indirect).start ∧
      Z.QR (Z.bT p.view p.indirect).start (Z.bU p.view p.indirect).start := by
  obtain ⟨I, R, f1, t1, s1⟩ : Paired false (planViews p) (ViewKeys T (planViews p))
      (withOffset q (withTimes q rm fill (withFilters p.onSource (timeoutM (curM T sf)))))
      (withOffset q (withTimes q rm fill (withFilters p.onSource (curM T sf)))) :=
    (((paired_cur hT sf (planViews p)).filters (hp.source T)).times q rm fill).offset q
  obtain ⟨J, K, f2, t2, s2⟩ : Paired true (· = p.view) (ViewKeys Ti (· = p.view))
      (withFilters p.onIndex (timeoutM (curM Ti sfi))) (withFilters p.onIndex (curM Ti sfi)) :=
    (paired_cur hTi sfi (· = p.view)).filters (hp.index Ti)
  refine ⟨{ fU := f1, fX := f2, tT := t1, tY := t2, .. }, rfl, ?_, ?_, ?_, ?_⟩
  · simp only [assemble, TwinSet.bT, withTimeout, hl, if_true]; rfl
  · simp only [assemble, TwinSet.bU, withTimeout, hl0]; rfl
  · unfold Built.start
    cases hi : p.indirect with
    | none => exact (s1 p.view fun _ => rfl).1
    | some tb =>
      have hpv : ∀ V, planViews p V := fun V h => by rw [hi] at h; cases h
      refine ⟨⟨fun k => (s1 _ (hpv _)).1, fun k => (s1 _ (hpv _)).2⟩, (s2 p.view rfl).1, fun x hx => by cases hx⟩
  · unfold Built.start
    cases hi : p.indirect with
    | none => exact (s1 p.view fun _ => rfl).2
    | some tb => exact ⟨rfl, (s2 p.view rfl).2, trivial⟩

end Verif
