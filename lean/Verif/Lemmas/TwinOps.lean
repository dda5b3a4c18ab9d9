import Verif.Lemmas.Twin

/-!
# Progress and twins of the table operators
-/

namespace Verif
open Spec

/-! ## Readers and the timeout stage -/

/-- Iterator of a reader: the rows before its position are at or below `lo`. -/
def CurI (T : Table) (PV : View → Prop) (u : View × Table) (lo : Bytes) : Prop :=
  PV u.1 ∧ ∃ pre, T = pre ++ u.2 ∧ ∀ x ∈ pre, lexLe x.1 lo = true

/-- Keys of the table that one of the views covers. -/
def ViewKeys (T : Table) (PV : View → Prop) (x : Bytes) : Prop :=
  (∃ V, PV V ∧ V.ok x = true) ∧ ∃ v, (x, v) ∈ T

theorem cur_start {T : Table} {PV : View → Prop} {sf : View → Bytes → Bool} {V : View} (h : PV V) :
    CurI T PV ((curM T sf).start V) V.lo := by
  refine ⟨h, T.takeWhile fun kv => lexLt kv.1 V.lo, (List.takeWhile_append_dropWhile).symm, fun x hx => ?_⟩
  have := mem_takeWhile_imp hx
  exact lexLe_iff.2 (.inl this)

theorem fwd_cur {T : Table} (hT : Sorted T) (sf : View → Bytes → Bool) (PV : View → Prop) :
    Fwd true (curM T sf) (ViewKeys T PV) (CurI T PV) where
  next := by
    rintro ⟨V, r⟩ lo v ⟨hV, pre, hT', hpre⟩
    simp only at hT' hV
    cases r with
    | nil =>
      exact ⟨Still.refl _, by simp [curM], by simp [curM], ⟨lo, hV, pre, hT', hpre⟩, Nat.le_refl _,
        fun kv h => by simp [curM] at h⟩
    | cons kv r =>
      by_cases hok : V.ok kv.1 = true
      · have hI : CurI T PV (V, r) kv.1 := by
          refine ⟨hV, pre ++ [kv], by simp [hT'], fun x hx => ?_⟩
          rcases List.mem_append.1 hx with hx | hx
          · rw [hT'] at hT
            exact (List.pairwise_append.1 hT).2.2 x hx kv (by simp)
          · simp only [List.mem_singleton] at hx; subst hx; exact lexLe_refl _
        simp only [curM, hok, if_true]
        refine ⟨Still.refl _, by simp, by simp, ⟨_, hI⟩, by simp, fun kv' h => ?_⟩
        cases h
        exact ⟨⟨⟨V, hV, hok⟩, kv.2, by simp [hT']⟩, hI, by simp⟩
      · simp only [curM, hok, Bool.false_eq_true, if_false]
        exact ⟨Still.refl _, by simp, by simp, ⟨lo, hV, pre, hT', hpre⟩, Nat.le_refl _,
          fun kv h => by simp at h⟩
  seek := by
    rintro - ⟨V, r⟩ lo k v ⟨hV, pre, hT', hpre⟩ hk
    simp only at hT' hV
    refine ⟨Still.refl _, ⟨hV, T.takeWhile fun kv => lexLt kv.1 k, ?_, ?_⟩, ?_⟩
    · exact (List.takeWhile_append_dropWhile).symm
    · intro x hx
      have := mem_takeWhile_imp hx
      exact lexLe_iff.2 (.inl this)
    · simp only [curM]
      rw [dropWhile_lt hT, hT', filter_ge_append hpre hk]
      exact List.length_filter_le _ _
  steady := by
    rintro ⟨V, r⟩ lo v v' - h
    cases r with
    | nil => exact ⟨rfl, rfl, h⟩
    | cons kv r =>
      by_cases hok : V.ok kv.1 = true
      · simp only [curM, hok, if_true]; exact ⟨rfl, rfl, h⟩
      · simp only [curM, hok, Bool.false_eq_true, if_false]; exact ⟨rfl, rfl, h⟩
  steadySeek := by
    rintro - ⟨V, r⟩ lo k v v' - - h
    exact ⟨rfl, rfl, h⟩

theorem twin_timeout {sk : Bool} {U : Mach} {P : Bytes → Prop} {I : U.St → Bytes → Prop}
    (hU : Fwd sk U P I) : Twin sk (timeoutM U) U I Eq where
  size h := by subst h; rfl
  next := by
    rintro s u lo w rfl hI ha
    have hfr : TimeFrame w { w with tick := w.tick + 1 } := ⟨rfl, rfl, rfl, Nat.le_succ _⟩
    by_cases hg : timespecGe (w.clock w.tick) w.deadline = true
    · have hx : (timeoutM U).next s w = (.timeout, s, { w with tick := w.tick + 1 }) := by
        exact (if_pos hg).trans (if_pos ha)
      rw [hx]
      refine ⟨hfr, .inl ⟨rfl, ⟨w.tick, rfl, Nat.le_refl _, hg, ?_⟩,
        s, rfl, ⟨lo, hI⟩, Nat.le_refl _, fun v hv => ⟨v, hv, SameO.refl _⟩⟩⟩
      intro j h1 h2; omega
    · have hg : timespecGe (w.clock w.tick) w.deadline = false := by simpa using hg
      simp only [timeoutM, hg, Bool.false_eq_true, if_false]
      have hcalm : Calm w { w with tick := w.tick + 1 } := by
        intro i h1 h2
        have h2 : i < w.tick + 1 := h2
        have : i = w.tick := by omega
        rw [this]; exact hg
      have hst := (hU.next { w with tick := w.tick + 1 } hI).1
      refine ⟨hfr.trans hst.time, .inr ⟨hfr.calm hcalm hst.calm, fun v hv => ?_⟩⟩
      have := hU.steady (v := { w with tick := w.tick + 1 }) (v' := v) hI hv.symm
      exact ⟨this.1, this.2.1, this.2.2⟩
  seek := by
    rintro hsk s u lo k w v rfl hI hk hv
    have := hU.steadySeek hsk k (v := w) (v' := v) hI hk hv.symm
    exact ⟨this.1, this.2.1, this.2.2, (hU.seek hsk k w hI hk).1⟩

/-- Filters on top of each other. -/
theorem fwd_filters {sk : Bool} {P : Bytes → Prop} (fs : List Filt)
    (hf : ∀ f ∈ fs, OkF sk P (pureF f.2)) :
    ∀ {U : Mach} {I : U.St → Bytes → Prop}, Fwd sk U P I →
      ∃ I' : (withFilters fs U).St → Bytes → Prop, Fwd sk (withFilters fs U) P I' ∧
        ∀ V lo, I (U.start V) lo → I' ((withFilters fs U).start V) lo := by
  induction fs with
  | nil => intro U I h; exact ⟨I, h, fun _ _ h => h⟩
  | cons f fs ih =>
    intro U I h
    exact ih (fun g hg => hf g (List.mem_cons_of_mem _ hg))
      (fwd_filter (g := f.1) h (hf f List.mem_cons_self))

theorem twin_filters {sk : Bool} {P : Bytes → Prop} (fs : List Filt)
    (hf : ∀ f ∈ fs, OkF sk P (pureF f.2)) :
    ∀ {T U : Mach} {I : U.St → Bytes → Prop} {R : T.St → U.St → Prop}, Fwd sk U P I → Twin sk T U I R →
      ∃ (I' : (withFilters fs U).St → Bytes → Prop) (R' : (withFilters fs T).St → (withFilters fs U).St → Prop),
        Fwd sk (withFilters fs U) P I' ∧ Twin sk (withFilters fs T) (withFilters fs U) I' R' ∧
        (∀ V lo, I (U.start V) lo → I' ((withFilters fs U).start V) lo) ∧
        ∀ V, R (T.start V) (U.start V) → R' ((withFilters fs T).start V) ((withFilters fs U).start V) := by
  induction fs with
  | nil => intro T U I R h h2; exact ⟨I, R, h, h2, fun _ _ h => h, fun _ h => h⟩
  | cons f fs ih =>
    intro T U I R h h2
    have hf0 := hf f List.mem_cons_self
    exact ih (fun g hg => hf g (List.mem_cons_of_mem _ hg)) (fwd_filter (g := f.1) h hf0)
      (twin_filter h hf0 h2)

theorem Fwd.weaken {sk : Bool} {U : Mach} {P : Bytes → Prop} {I : U.St → Bytes → Prop}
    (h : Fwd sk U P I) : Fwd false U P I where
  next := h.next
  seek h := by cases h
  steady := h.steady
  steadySeek h := by cases h

theorem Twin.weaken {sk : Bool} {T U : Mach} {I : U.St → Bytes → Prop} {R : T.St → U.St → Prop}
    (h : Twin sk T U I R) : Twin false T U I R where
  size := h.size
  next := h.next
  seek h := by cases h

/-! ## Removal -/

theorem rmFetch_eq (R : Src) (s : View × Table) (k : Bytes) (w : World) :
    rmFetch R s k w =
      if (R.seekFails s.1 k && ((R.rows.dropWhile fun kv => lexLt kv.1 k).filter fun kv => s.1.ok kv.1).isEmpty) = true
      then (none, (s.1, R.rows.dropWhile fun kv => lexLt kv.1 k), w)
      else match R.rows.dropWhile fun kv => lexLt kv.1 k with
        | [] => (none, (s.1, []), w.upd .removeStrict fun c => { c with seek := c.seek + 1 })
        | kv :: r =>
          if s.1.ok kv.1 = true then (some kv.1, (s.1, r), w.upd .removeStrict fun c => { c with seek := c.seek + 1 })
          else (none, (s.1, kv :: r), w.upd .removeStrict fun c => { c with seek := c.seek + 1 }) := by
  have h : R.mach.seek s k w = (!(R.seekFails s.1 k && ((R.rows.dropWhile fun kv => lexLt kv.1 k).filter
      fun kv => s.1.ok kv.1).isEmpty), (s.1, R.rows.dropWhile fun kv => lexLt kv.1 k), w) := rfl
  unfold rmFetch
  rw [h]
  generalize (R.seekFails s.1 k && ((R.rows.dropWhile fun kv => lexLt kv.1 k).filter
      fun kv => s.1.ok kv.1).isEmpty) = c
  cases c with
  | true => rfl
  | false =>
    rw [if_neg (by simp)]
    cases R.rows.dropWhile (fun kv => lexLt kv.1 k) with
    | nil => rfl
    | cons kv r =>
      by_cases hok : s.1.ok kv.1 = true
      · have : R.mach.next (s.1, kv :: r) (w.upd .removeStrict fun c => { c with seek := c.seek + 1 }) =
            (.item kv, (s.1, r), w.upd .removeStrict fun c => { c with seek := c.seek + 1 }) := by
          exact if_pos hok
        show (match R.mach.next (s.1, kv :: r) (w.upd .removeStrict fun c => { c with seek := c.seek + 1 }) with
          | (.item kv, s, w) => (some kv.1, s, w)
          | (_, s, w) => (none, s, w)) = if s.1.ok kv.1 = true then _ else _
        rw [this]; exact (if_pos hok).symm
      · have : R.mach.next (s.1, kv :: r) (w.upd .removeStrict fun c => { c with seek := c.seek + 1 }) =
            (.done, (s.1, kv :: r), w.upd .removeStrict fun c => { c with seek := c.seek + 1 }) := by
          exact if_neg hok
        show (match R.mach.next (s.1, kv :: r) (w.upd .removeStrict fun c => { c with seek := c.seek + 1 }) with
          | (.item kv, s, w) => (some kv.1, s, w)
          | (_, s, w) => (none, s, w)) = if s.1.ok kv.1 = true then _ else _
        rw [this]; exact (if_neg hok).symm

theorem rmFetch_ge {R : Src} {s : View × Table} {k k' : Bytes} {w : World}
    (h : (rmFetch R s k w).1 = some k') : lexLe k k' = true := by
  rw [rmFetch_eq] at h
  split at h
  · cases h
  · cases hd : R.rows.dropWhile (fun kv => lexLt kv.1 k) with
    | nil => rw [hd] at h; cases h
    | cons kv r =>
      rw [hd] at h
      have hge : lexLt kv.1 k = false := by
        have := List.head?_dropWhile_not (fun kv : KV => lexLt kv.1 k) R.rows
        rw [hd] at this
        simpa using this
      simp only at h
      split at h
      · cases h; exact lexLt_false_iff.1 hge
      · cases h

theorem rmFetch_frame (R : Src) (s : View × Table) (k : Bytes) (w w' : World) :
    (rmFetch R s k w).1 = (rmFetch R s k w').1 ∧ (rmFetch R s k w).2.1 = (rmFetch R s k w').2.1 ∧
    Still w (rmFetch R s k w).2.2 ∧ (rmFetch R s k w).2.2.offset = w.offset := by
  have hu : Still w (w.upd .removeStrict fun c => { c with seek := c.seek + 1 }) := (Still.refl _).upd _ _
  rw [rmFetch_eq, rmFetch_eq]
  split
  · exact ⟨rfl, rfl, Still.refl _, rfl⟩
  · cases R.rows.dropWhile (fun kv => lexLt kv.1 k) with
    | nil => exact ⟨rfl, rfl, hu, rfl⟩
    | cons kv r =>
      by_cases hok : s.1.ok kv.1 = true
      · simp only [if_pos hok]; exact ⟨trivial, trivial, hu, rfl⟩
      · simp only [if_neg hok]; exact ⟨trivial, trivial, hu, rfl⟩

/-- Results of the match functions: equal up to the world, which is left alone, and no endless loop. -/
def MatchLike {β : Type} (x y : Option Bool × β × World) (w : World) : Prop :=
  x.1 = y.1 ∧ x.2.1 = y.2.1 ∧ Still w x.2.2 ∧ x.2.2.offset = w.offset ∧ x.1 ≠ none

theorem rmAdvance_frame (k : Bytes) (n : Nat) (e : RmEntry) (s : View × Table) (w w' : World)
    (hn : 2 ≤ n ∨ (1 ≤ n ∧ lexLe k e.key = true)) :
    MatchLike (rmAdvance k n e s w) (rmAdvance k n e s w') w := by
  induction n generalizing e s w w' with
  | zero => omega
  | succ n ih =>
    rcases e with ⟨src, it, key, fin⟩
    unfold rmAdvance
    cases fin with
    | true => simp only [if_true]; exact ⟨rfl, rfl, Still.refl _, rfl, by simp⟩
    | false =>
      simp only [Bool.false_eq_true, if_false]
      cases hc : bytesCompare key k with
      | gt => exact ⟨rfl, rfl, Still.refl _, rfl, by simp⟩
      | eq => exact ⟨rfl, rfl, Still.refl _, rfl, by simp⟩
      | lt =>
        have hlt := bytesCompare_lt.1 hc
        have hge := fun k' => rmFetch_ge (R := src) (s := s) (k := k) (k' := k') (w := w)
        obtain ⟨h1, h2, h3, h4⟩ := rmFetch_frame src s k w w'
        simp only
        rcases e1 : rmFetch src s k w with ⟨o, s1, w1⟩
        rcases e2 : rmFetch src s k w' with ⟨o', s1', w1'⟩
        rw [e1, e2] at h1 h2
        rw [e1] at h3 h4 hge
        simp only at h1 h2 h3 h4 hge
        subst h1 h2
        cases o with
        | none => exact ⟨rfl, rfl, h3, h4, by simp⟩
        | some k' =>
          have hn' : 1 ≤ n := by
            rcases hn with hn | hn
            · omega
            · rw [← lexLt_false_iff, hlt] at hn; exact absurd hn.2 (by simp)
          obtain ⟨a, b, c, d, f⟩ := ih ⟨src, it, k', false⟩ s1 w1 w1' (.inr ⟨hn', hge k' rfl⟩)
          exact ⟨a, b, h3.trans c, d.trans h4, f⟩

theorem rmEntryMatch_frame (V : View) (k : Bytes) (e : RmEntry) (w w' : World) :
    MatchLike (rmEntryMatch V k e w) (rmEntryMatch V k e w') w := by
  rcases e with ⟨src, it, key, fin⟩
  unfold rmEntryMatch
  cases it with
  | some s => exact rmAdvance_frame k _ _ s w w' (.inl (by omega))
  | none =>
    obtain ⟨h1, h2, h3, h4⟩ := rmFetch_frame src (src.mach.start V) k w w'
    simp only
    rcases e1 : rmFetch src (src.mach.start V) k w with ⟨o, s1, w1⟩
    rcases e2 : rmFetch src (src.mach.start V) k w' with ⟨o', s1', w1'⟩
    rw [e1, e2] at h1 h2
    rw [e1] at h3 h4
    simp only at h1 h2 h3 h4
    subst h1 h2
    cases o with
    | none => exact ⟨rfl, rfl, h3, h4, by simp⟩
    | some k' =>
      obtain ⟨a, b, c, d, f⟩ := rmAdvance_frame k (src.rows.length + 2) ⟨src, none, k', fin⟩ s1 w1 w1'
        (.inl (by omega))
      exact ⟨a, b, h3.trans c, d.trans h4, f⟩

theorem matchKey_frame (V : View) (k : Bytes) (seen es : List RmEntry) (w w' : World) :
    MatchLike (matchKey V k seen es w) (matchKey V k seen es w') w := by
  induction es generalizing seen w w' with
  | nil => exact ⟨rfl, rfl, Still.refl _, rfl, by simp [matchKey]⟩
  | cons e es ih =>
    obtain ⟨h1, h2, h3, h4, h5⟩ := rmEntryMatch_frame V k e w w'
    unfold matchKey
    rcases e1 : rmEntryMatch V k e w with ⟨o, s1, w1⟩
    rcases e2 : rmEntryMatch V k e w' with ⟨o', s1', w1'⟩
    rw [e1, e2] at h1 h2
    rw [e1] at h3 h4 h5
    simp only at h1 h2 h3 h4 h5
    subst h1 h2
    cases o with
    | none => exact absurd rfl h5
    | some b =>
      cases b with
      | true =>
        exact ⟨rfl, rfl, h3.trans ((Still.refl w1).upd .removeStrict fun c =>
          { c with filtered := c.filtered + 1 }), h4, by simp⟩
      | false =>
        obtain ⟨a, b, c, d, f⟩ := ih (s1 :: seen) w1 w1'
        exact ⟨a, b, h3.trans c, d.trans h4, f⟩

/-- Invariant of the removal iterator. -/
def RmI {U : Mach} (I : U.St → Bytes → Prop) (s : RemoveSt U) (lo : Bytes) : Prop := I s.up lo

theorem removeLoop_fwd {sk : Bool} {U : Mach} {P : Bytes → Prop} {I : U.St → Bytes → Prop}
    (hU : Fwd sk U P I) {n : Nat} :
    ∀ {s : RemoveSt U} {lo} v, RmI I s lo → U.size s.up < n →
      let x := removeLoop U n s v
      Still v x.2.2 ∧ x.1 ≠ .timeout ∧ x.1 ≠ .fault .diverge ∧ (∃ lo', RmI I x.2.1 lo') ∧
      U.size x.2.1.up ≤ U.size s.up ∧
      ∀ kv, x.1 = .item kv → P kv.1 ∧ RmI I x.2.1 kv.1 ∧ U.size x.2.1.up < U.size s.up := by
  induction n with
  | zero => intros; omega
  | succ n ih =>
    intro s lo v hI hn
    have h := hU.next v hI
    simp only [removeLoop]
    rcases hm : U.next s.up v with ⟨r, u', v'⟩
    rw [hm] at h
    obtain ⟨h1, h2, h3, h4, h5, h6⟩ := h
    simp only at h1 h2 h3 h4 h5 h6
    cases r with
    | item kv =>
      obtain ⟨hP, hI', hlt⟩ := h6 kv rfl
      obtain ⟨-, -, m3, m4, m5⟩ := matchKey_frame s.view kv.1 [] s.entries v' v'
      simp only
      rcases hmk : matchKey s.view kv.1 [] s.entries v' with ⟨o, es, v2⟩
      rw [hmk] at m3 m4 m5
      simp only at m3 m4 m5
      cases o with
      | none => exact absurd rfl m5
      | some b =>
        cases b with
        | false =>
          exact ⟨h1.trans m3, by simp, by simp, ⟨_, hI'⟩, h5, fun kv' he => by
            cases he; exact ⟨hP, hI', hlt⟩⟩
        | true =>
          obtain ⟨a, b, c, d, e, k⟩ := ih (s := { s with up := u', entries := es }) v2 hI' (by simp only; omega)
          exact ⟨(h1.trans m3).trans a, b, c, d, Nat.le_trans e h5, fun kv' he =>
            ⟨(k kv' he).1, (k kv' he).2.1, Nat.lt_of_lt_of_le (k kv' he).2.2 h5⟩⟩
    | done => exact ⟨h1, h2, h3, h4, h5, fun _ he => by cases he⟩
    | timeout => exact absurd rfl h2
    | fault e => exact ⟨h1, h2, h3, h4, h5, fun _ he => by cases he⟩

theorem removeLoop_same {sk : Bool} {U : Mach} {P : Bytes → Prop} {I : U.St → Bytes → Prop}
    (hU : Fwd sk U P I) {n : Nat} :
    ∀ {m : Nat} {s s' : RemoveSt U} {lo lo' : Bytes} {v v' : World}, RmI I s lo → RmI I s' lo' →
      s.entries = s'.entries → s.view = s'.view →
      SameO (U.next s.up v) (U.next s'.up v') → U.size s.up < n → U.size s'.up < m →
      SameO (removeLoop U n s v) (removeLoop U m s' v') := by
  induction n with
  | zero => intros; omega
  | succ n ih =>
    rintro m ⟨u, es, V⟩ ⟨u', es', V'⟩ lo lo' v v' hI hI' rfl rfl hs hn hm
    obtain ⟨m, rfl⟩ : ∃ k, m = k + 1 := ⟨m - 1, by omega⟩
    have h := hU.next v hI
    have h' := hU.next v' hI'
    simp only at h h' hs hn hm
    simp only [removeLoop]
    rcases e1 : U.next u v with ⟨r, x, a⟩
    rcases e2 : U.next u' v' with ⟨r', x', b⟩
    rw [e1, e2] at hs
    obtain ⟨rfl, rfl, ho⟩ := hs
    rw [e1] at h
    rw [e2] at h'
    simp only at ho
    cases r with
    | item kv =>
      obtain ⟨hP, hIx, hlt⟩ := h.2.2.2.2.2 kv rfl
      obtain ⟨-, -, hlt'⟩ := h'.2.2.2.2.2 kv rfl
      simp only at hIx hlt hlt'
      obtain ⟨m1, m2, m3, m4, m5⟩ := matchKey_frame V kv.1 [] es a b
      obtain ⟨-, -, -, m4', -⟩ := matchKey_frame V kv.1 [] es b b
      simp only
      rcases k1 : matchKey V kv.1 [] es a with ⟨o, es1, a2⟩
      rcases k2 : matchKey V kv.1 [] es b with ⟨o', es2, b2⟩
      rw [k1, k2] at m1 m2
      rw [k1] at m4 m5
      rw [k2] at m4'
      simp only at m1 m2 m4 m4' m5
      subst m1 m2
      have ho2 : a2.offset = b2.offset := by rw [m4, m4', ho]
      cases o with
      | none => exact absurd rfl m5
      | some c =>
        cases c with
        | false => exact ⟨rfl, rfl, ho2⟩
        | true =>
          exact ih (s := ⟨x, es1, V⟩) (s' := ⟨x, es1, V⟩) hIx hIx rfl rfl (hU.steady hIx ho2)
            (by simp only; omega) (by simp only; omega)
    | done => exact ⟨rfl, rfl, ho⟩
    | timeout => exact ⟨rfl, rfl, ho⟩
    | fault e => exact ⟨rfl, rfl, ho⟩

theorem fwd_remove {sk : Bool} {U : Mach} {P : Bytes → Prop} {I : U.St → Bytes → Prop}
    (hU : Fwd sk U P I) (rms : List Src) : Fwd false (removeM rms U) P (RmI I) where
  next v hI := removeLoop_fwd hU v hI (Nat.lt_succ_self _)
  seek h := by cases h
  steady hI h := removeLoop_same hU hI hI rfl rfl (hU.steady hI h) (Nat.lt_succ_self _) (Nat.lt_succ_self _)
  steadySeek h := by cases h

/-- Twin states of the removal iterator. -/
def RmR {T U : Mach} (R : T.St → U.St → Prop) (s : RemoveSt T) (u : RemoveSt U) : Prop :=
  R s.up u.up ∧ s.entries = u.entries ∧ s.view = u.view

theorem twin_removeLoop {sk : Bool} {T U : Mach} {P : Bytes → Prop} {I : U.St → Bytes → Prop}
    {R : T.St → U.St → Prop} (hU : Fwd sk U P I) (hT : Twin sk T U I R) (rms : List Src) {n : Nat} :
    ∀ {s : RemoveSt T} {u : RemoveSt U} {lo} w, RmR R s u → RmI I u lo → w.armed = true →
      U.size u.up < n →
      let x := removeLoop T n s w
      TimeFrame w x.2.2 ∧
      ((x.1 = .timeout ∧ Expired w x.2.2 ∧ ∃ u', RmR R x.2.1 u' ∧ (∃ lo', RmI I u' lo') ∧
          U.size u'.up ≤ U.size u.up ∧
          ∀ v, v.offset = w.offset → ∃ v', v'.offset = x.2.2.offset ∧
            SameO ((removeM rms U).next u v) ((removeM rms U).next u' v')) ∨
       (Calm w x.2.2 ∧ ∀ v, v.offset = w.offset → x.1 = ((removeM rms U).next u v).1 ∧
          RmR R x.2.1 ((removeM rms U).next u v).2.1 ∧
          x.2.2.offset = ((removeM rms U).next u v).2.2.offset)) := by
  induction n with
  | zero => intros; omega
  | succ n ih =>
    rintro ⟨s, es, V⟩ ⟨u, es', V'⟩ lo w ⟨hR, rfl, rfl⟩ hI ha hn
    simp only at hR hn
    have hI : I u lo := hI
    have h := hT.next w hR hI ha
    simp only [removeLoop]
    rcases hm : T.next s w with ⟨r, s', w'⟩
    rw [hm] at h
    obtain ⟨hfr, h⟩ := h
    simp only at hfr h
    rcases h with ⟨rfl, hex, u', hR', ⟨lo', hI'⟩, hsz, hv⟩ | ⟨hc, hv⟩
    · refine ⟨hfr, .inl ⟨rfl, hex, ⟨u', es, V⟩, ⟨hR', rfl, rfl⟩, ⟨lo', hI'⟩, hsz, fun v hvo => ?_⟩⟩
      obtain ⟨v', h1, h2⟩ := hv v hvo
      exact ⟨v', h1, removeLoop_same hU hI hI' rfl rfl h2 (Nat.lt_succ_self _) (Nat.lt_succ_self _)⟩
    · cases r with
      | done =>
        refine ⟨hfr, .inr ⟨hc, fun v hvo => ?_⟩⟩
        have := hv v hvo
        simp only [removeM, removeLoop]
        rcases hu : U.next u v with ⟨r, u', v'⟩
        rw [hu] at this
        obtain ⟨rfl, h2, h3⟩ := this
        exact ⟨rfl, ⟨h2, rfl, rfl⟩, h3⟩
      | timeout =>
        have := hv { w with offset := w.offset } rfl
        exact absurd this.1.symm (hU.next _ hI).2.1
      | fault e =>
        refine ⟨hfr, .inr ⟨hc, fun v hvo => ?_⟩⟩
        have := hv v hvo
        simp only [removeM, removeLoop]
        rcases hu : U.next u v with ⟨r, u', v'⟩
        rw [hu] at this
        obtain ⟨rfl, h2, h3⟩ := this
        exact ⟨rfl, ⟨h2, rfl, rfl⟩, h3⟩
      | item kv =>
        obtain ⟨x, hRx, hIx, hltx, hstep⟩ : ∃ x, R s' x ∧ I x kv.1 ∧ U.size x < U.size u ∧
            ∀ v, v.offset = w.offset → ∃ v', U.next u v = (.item kv, x, v') ∧ v'.offset = w'.offset := by
          have h0 := hv w rfl
          have hp := (hU.next w hI).2.2.2.2.2 kv h0.1.symm
          refine ⟨_, h0.2.1, hp.2.1, hp.2.2, fun v hvo => ?_⟩
          have h1 := hv v hvo
          have h2 := hU.steady (v := v) (v' := w) hI hvo
          rcases hu : U.next u v with ⟨r, u', v'⟩
          rw [hu] at h1 h2
          obtain ⟨rfl, -, h3⟩ := h1
          exact ⟨v', by rw [← h2.2.1], h3.symm⟩
        have hmk := fun v' => matchKey_frame V kv.1 [] es w' v'
        simp only
        rcases hd : matchKey V kv.1 [] es w' with ⟨o, es2, w2⟩
        rw [hd] at hmk
        obtain ⟨-, -, hst, ho2, hne⟩ := hmk w'
        simp only at hst ho2 hne
        have hfr2 : TimeFrame w w2 := hfr.trans hst.time
        have hc2 : Calm w w2 := hfr.calm hc hst.calm
        have hun : ∀ v, v.offset = w.offset → ∃ v2, v2.offset = w2.offset ∧
            (removeM rms U).next ⟨u, es, V⟩ v =
              (match o with
                | some true => removeLoop U (U.size u) ⟨x, es2, V⟩ v2
                | some false => (.item kv, ⟨x, es2, V⟩, v2)
                | none => (.fault .diverge, ⟨x, es2, V⟩, v2)) := by
          intro v hvo
          obtain ⟨v', h1, h2⟩ := hstep v hvo
          have h3 := hmk v'
          have h4 := matchKey_frame V kv.1 [] es v' v'
          refine ⟨(matchKey V kv.1 [] es v').2.2, by rw [h4.2.2.2.1, h2, ho2], ?_⟩
          simp only [removeM, removeLoop, h1]
          rcases hd' : matchKey V kv.1 [] es v' with ⟨o', es3, v2⟩
          rw [hd'] at h3
          obtain ⟨h5, h6, -⟩ := h3
          simp only at h5 h6
          subst h5 h6
          cases o with
          | none => rfl
          | some b => cases b <;> rfl
        cases o with
        | none => exact absurd rfl hne
        | some b =>
          cases b with
          | false =>
            refine ⟨hfr2, .inr ⟨hc2, fun v hvo => ?_⟩⟩
            obtain ⟨v2, h1, h2⟩ := hun v hvo
            rw [h2]
            exact ⟨rfl, ⟨hRx, rfl, rfl⟩, h1.symm⟩
          | true =>
            have ih := ih (s := ⟨s', es2, V⟩) (u := ⟨x, es2, V⟩) (lo := kv.1) w2 ⟨hRx, rfl, rfl⟩ hIx
              (hfr2.armed.trans ha) (by simp only; omega)
            obtain ⟨hfr3, ih⟩ := ih
            refine ⟨hfr2.trans hfr3, ?_⟩
            have heq : ∀ v v2 : World, (removeM rms U).next ⟨u, es, V⟩ v =
                removeLoop U (U.size u) ⟨x, es2, V⟩ v2 →
                SameO ((removeM rms U).next ⟨u, es, V⟩ v) ((removeM rms U).next ⟨x, es2, V⟩ v2) :=
              fun v v2 h => by
                rw [h]
                exact removeLoop_same hU (s := ⟨x, es2, V⟩) (s' := ⟨x, es2, V⟩) hIx hIx rfl rfl
                  (hU.steady hIx rfl) hltx (Nat.lt_succ_self _)
            rcases ih with ⟨hr, hex, u', hR', hI', hsz, hv'⟩ | ⟨hc3, hv'⟩
            · refine .inl ⟨hr, hfr2.expired hc2 hex, u', hR', hI', by simp only at hsz ⊢; omega, fun v hvo => ?_⟩
              obtain ⟨v2, h1, h2⟩ := hun v hvo
              obtain ⟨v3, h3, h4⟩ := hv' v2 h1
              exact ⟨v3, h3, (heq v v2 h2).trans h4⟩
            · refine .inr ⟨hfr2.calm hc2 hc3, fun v hvo => ?_⟩
              obtain ⟨v2, h1, h2⟩ := hun v hvo
              have h3 := hv' v2 h1
              have h4 := heq v v2 h2
              rw [h4.1, h4.2.1, h4.2.2]
              exact h3

theorem twin_remove {sk : Bool} {T U : Mach} {P : Bytes → Prop} {I : U.St → Bytes → Prop}
    {R : T.St → U.St → Prop} (hU : Fwd sk U P I) (hT : Twin sk T U I R) (rms : List Src) :
    Twin false (removeM rms T) (removeM rms U) (RmI I) (RmR R) where
  size h := hT.size h.1
  next w hR hI ha := twin_removeLoop hU hT rms w hR hI ha
    (by rw [hT.size hR.1]; exact Nat.lt_succ_self _)
  seek h := by cases h

/-! ## Left join -/

/-- Twin states of the join. -/
def LjR {L L' Rt : Mach} (R : L.St → L'.St → Prop) (s : LjoinSt L Rt) (u : LjoinSt L' Rt) : Prop :=
  R s.left u.left ∧ s.right = u.right ∧ s.finished = u.finished ∧ s.rkv = u.rkv

theorem cur_fetch_ge {T : Table} {sf : View → Bytes → Bool} {s : View × Table} {k : Bytes} {w w' : World} {r : KV}
    (h : ((curM T sf).next ((curM T sf).seek s k w).2.1 w').1 = .item r) : lexLe k r.1 = true := by
  simp only [curM] at h
  cases hd : T.dropWhile (fun kv => lexLt kv.1 k) with
  | nil => rw [hd] at h; simp at h
  | cons kv rest =>
    have hge : lexLt kv.1 k = false := by
      have := List.head?_dropWhile_not (fun kv : KV => lexLt kv.1 k) T
      rw [hd] at this
      simpa using this
    rw [hd] at h
    simp only at h
    split at h
    · cases h; exact lexLt_false_iff.1 hge
    · cases h

/-- A merge function whose faults are not endless loops. -/
def MergeOk (merge : MergeFn) : Prop := ∀ k a b, merge k a b ≠ .fault .diverge

/-- At or beyond the key, once the next right row is fetched. -/
def RightAhead {L : Mach} {T : Table} {sf : View → Bytes → Bool} (k : Bytes) (s : LjoinSt L (curM T sf)) : Prop :=
  (s.rkv = none ∧ ∀ w r, ((curM T sf).next s.right w).1 = .item r → lexLe k r.1 = true) ∨
  ∃ r, s.rkv = some r ∧ lexLe k r.1 = true

theorem cur_next_pure (T : Table) (sf : View → Bytes → Bool) (s : View × Table) (w w' : World) :
    ((curM T sf).next s w).1 = ((curM T sf).next s w').1 ∧
    ((curM T sf).next s w).2.1 = ((curM T sf).next s w').2.1 ∧ ((curM T sf).next s w).2.2 = w ∧
    ((curM T sf).next s w).1 ≠ .timeout ∧ ∀ e, ((curM T sf).next s w).1 ≠ .fault e := by
  rcases s with ⟨V, r⟩
  cases r with
  | nil => simp [curM]
  | cons kv r => by_cases h : V.ok kv.1 = true <;> simp [curM, h]

theorem ljoinLoop_like {L L' : Mach} {T : Table} {sf : View → Bytes → Bool} {merge : MergeFn}
    (hm : MergeOk merge) (kv : KV) {n : Nat} :
    ∀ {s : LjoinSt L (curM T sf)} {u : LjoinSt L' (curM T sf)} (w v : World),
      s.right = u.right → s.finished = u.finished → s.rkv = u.rkv → 
      (2 ≤ n ∨ (1 ≤ n ∧ RightAhead kv.1 u)) →
      let x := ljoinLoop merge L (curM T sf) kv n s w
      let y := ljoinLoop merge L' (curM T sf) kv n u v
      x.1 = y.1 ∧ x.2.1.left = s.left ∧ y.2.1.left = u.left ∧ x.2.1.right = y.2.1.right ∧
      x.2.1.finished = y.2.1.finished ∧ x.2.1.rkv = y.2.1.rkv ∧ Still w x.2.2 ∧ Still v y.2.2 ∧
      x.2.2.offset = w.offset ∧ y.2.2.offset = v.offset ∧ y.1 ≠ .timeout ∧ y.1 ≠ .fault .diverge ∧
      ∀ kv', y.1 = .item kv' → kv'.1 = kv.1 := by
  induction n with
  | zero => intros; omega
  | succ n ih =>
    rintro ⟨sl, sr, fin, rkv⟩ ⟨ul, ur, fin', rkv'⟩ w v h1 h2 h3 hn
    simp only at h1 h2 h3
    subst h1 h2 h3
    simp only [ljoinLoop]
    cases fin with
    | true =>
      exact ⟨rfl, rfl, rfl, rfl, rfl, rfl, Still.refl _, Still.refl _, rfl, rfl, by simp, by simp,
        fun _ h => by cases h; rfl⟩
    | false =>
      simp only [Bool.false_eq_true, if_false]
      have key : ∀ (sr : View × Table) (r : KV) (w v : World), (2 ≤ n + 1 ∨ lexLe kv.1 r.1 = true) →
          let x := ljoinCompare merge L (curM T sf) kv (ljoinLoop merge L (curM T sf) kv n) r
            ⟨sl, sr, false, some r⟩ w
          let y := ljoinCompare merge L' (curM T sf) kv (ljoinLoop merge L' (curM T sf) kv n) r
            ⟨ul, sr, false, some r⟩ v
          x.1 = y.1 ∧ x.2.1.left = sl ∧ y.2.1.left = ul ∧ x.2.1.right = y.2.1.right ∧
          x.2.1.finished = y.2.1.finished ∧ x.2.1.rkv = y.2.1.rkv ∧ Still w x.2.2 ∧ Still v y.2.2 ∧
          x.2.2.offset = w.offset ∧ y.2.2.offset = v.offset ∧ y.1 ≠ .timeout ∧ y.1 ≠ .fault .diverge ∧
          ∀ kv', y.1 = .item kv' → kv'.1 = kv.1 := by
        intro sr r w v hn'
        simp only [ljoinCompare]
        cases hc : bytesCompare r.1 kv.1 with
        | gt =>
          exact ⟨rfl, rfl, rfl, rfl, rfl, rfl, Still.refl _, Still.refl _, rfl, rfl, by simp, by simp,
            fun _ h => by cases h; rfl⟩
        | eq =>
          simp only
          cases hmg : merge kv.1 kv.2 r.2 with
          | ok val =>
            have hst : ∀ w : World, Still w (w.upd .ljoin fun c => { c with merged := c.merged + 1 }) :=
              fun w => (Still.refl w).upd _ _
            exact ⟨rfl, rfl, rfl, rfl, rfl, rfl, hst w, hst v, rfl, rfl,
              by simp, by simp, fun _ h => by cases h; rfl⟩
          | fail =>
            exact ⟨rfl, rfl, rfl, rfl, rfl, rfl, Still.refl _, Still.refl _, rfl, rfl, by simp, by simp,
              fun _ h => by cases h⟩
          | fault e =>
            refine ⟨rfl, rfl, rfl, rfl, rfl, rfl, Still.refl _, Still.refl _, rfl, rfl, by simp, ?_,
              fun _ h => by cases h⟩
            intro he
            cases he
            exact hm _ _ _ hmg
        | lt =>
          have hlt := bytesCompare_lt.1 hc
          have hge := fun w' r' => cur_fetch_ge (T := T) (sf := sf) (s := sr) (k := kv.1) (w := w) (w' := w') (r := r')
          simp only
          have hsame : ((curM T sf).seek sr kv.1 w).1 = ((curM T sf).seek sr kv.1 v).1 ∧
              ((curM T sf).seek sr kv.1 w).2.1 = ((curM T sf).seek sr kv.1 v).2.1 ∧
              ((curM T sf).seek sr kv.1 w).2.2 = w ∧ ((curM T sf).seek sr kv.1 v).2.2 = v :=
            ⟨rfl, rfl, rfl, rfl⟩
          rcases e1 : (curM T sf).seek sr kv.1 w with ⟨ok, sr1, w1⟩
          rcases e2 : (curM T sf).seek sr kv.1 v with ⟨ok', sr1', v1⟩
          rw [e1, e2] at hsame
          rw [e1] at hge
          obtain ⟨rfl, rfl, rfl, rfl⟩ := hsame
          simp only at hge
          cases ok with
          | false =>
            exact ⟨rfl, rfl, rfl, rfl, rfl, rfl, Still.refl _, Still.refl _, rfl, rfl, by simp, by simp,
              fun _ h => by cases h; rfl⟩
          | true =>
            have hn1 : 1 ≤ n := by
              rcases hn' with hn' | hn'
              · omega
              · rw [← lexLt_false_iff, hlt] at hn'; cases hn'
            have ih := ih (s := ⟨sl, sr1, false, none⟩) (u := ⟨ul, sr1, false, none⟩)
              (w1.upd .ljoin fun c => { c with seek := c.seek + 1 })
              (v1.upd .ljoin fun c => { c with seek := c.seek + 1 }) rfl rfl rfl
              (.inr ⟨hn1, .inl ⟨rfl, fun w' r' h => hge w' r' h⟩⟩)
            obtain ⟨a1, a2, a3, a4, a5, a6, a7, a8, a9, a10, a11, a12, a13⟩ := ih
            exact ⟨a1, a2, a3, a4, a5, a6, ((Still.refl w1).upd _ _).trans a7,
              ((Still.refl v1).upd _ _).trans a8, a9, a10, a11, a12, a13⟩
      cases rkv with
      | some r =>
        simp only [ljoinFetch]
        refine key sr r w v ?_
        rcases hn with hn | ⟨-, hn⟩
        · exact .inl hn
        · rcases hn with ⟨hn, -⟩ | ⟨r', hr, hn⟩
          · cases hn
          · cases hr; exact .inr hn
      | none =>
        obtain ⟨c1, c2, c3, c4, c5⟩ := cur_next_pure T sf sr w v
        obtain ⟨-, -, c3', -, -⟩ := cur_next_pure T sf sr v v
        simp only [ljoinFetch]
        have hahead : ∀ r, ((curM T sf).next sr v).1 = .item r → (2 ≤ n + 1 ∨ lexLe kv.1 r.1 = true) := by
          intro r hr
          rcases hn with hn | ⟨-, hn⟩
          · exact .inl hn
          · rcases hn with ⟨-, hn⟩ | ⟨r', hr', -⟩
            · exact .inr (hn v r hr)
            · cases hr'
        rcases e1 : (curM T sf).next sr w with ⟨r, sr1, w1⟩
        rcases e2 : (curM T sf).next sr v with ⟨r', sr1', v1⟩
        rw [e1, e2] at c1 c2
        rw [e1] at c3 c4 c5
        rw [e2] at c3' hahead
        simp only at c1 c2 c3 c3' c4 c5 hahead
        subst c1 c2 c3 c3'
        cases r with
        | item r => exact key sr1 r w1 v1 (hahead r rfl)
        | done =>
          exact ⟨rfl, rfl, rfl, rfl, rfl, rfl, Still.refl _, Still.refl _, rfl, rfl, by simp, by simp,
            fun _ h => by cases h; rfl⟩
        | timeout => exact absurd rfl c4
        | fault e => exact absurd rfl (c5 e)

/-- Invariant of the join. -/
def LjI {U Rt : Mach} (I : U.St → Bytes → Prop) (s : LjoinSt U Rt) (lo : Bytes) : Prop := I s.left lo

theorem fwd_ljoin {sk : Bool} {U : Mach} {P : Bytes → Prop} {I : U.St → Bytes → Prop} {merge : MergeFn}
    (hm : MergeOk merge) (hU : Fwd sk U P I) (T : Table) (sf : View → Bytes → Bool) :
    Fwd false (ljoinM merge U (curM T sf)) P (LjI I) where
  next := by
    rintro ⟨ul, ur, fin, rkv⟩ lo v hI
    have h := hU.next (u := ul) v hI
    simp only [ljoinM]
    rcases hn : U.next ul v with ⟨r, ul', v'⟩
    rw [hn] at h
    obtain ⟨h1, h2, h3, h4, h5, h6⟩ := h
    simp only at h1 h2 h3 h4 h5 h6
    cases r with
    | item kv =>
      obtain ⟨hP, hI', hlt⟩ := h6 kv rfl
      obtain ⟨-, a2, -, -, -, -, a7, -, -, -, a11, a12, a13⟩ :=
        ljoinLoop_like (L := U) (L' := U) (T := T) (sf := sf) hm kv
          (n := (curM T sf).size ur + 3) (s := ⟨ul', ur, fin, rkv⟩) (u := ⟨ul', ur, fin, rkv⟩) v' v' rfl rfl rfl
          (.inl (by omega))
      simp only at a2
      refine ⟨h1.trans a7, a11, a12, ⟨kv.1, by simpa only [LjI, a2] using hI'⟩, by simpa only [a2] using h5, ?_⟩
      intro kv' he
      have := a13 kv' he
      rw [this]
      refine ⟨hP, by simpa only [LjI, a2] using hI', by simpa only [a2] using hlt⟩
    | done => exact ⟨h1, h2, h3, h4, h5, fun _ he => by cases he⟩
    | timeout => exact absurd rfl h2
    | fault e => exact ⟨h1, h2, h3, h4, h5, fun _ he => by cases he⟩
  seek h := by cases h
  steady := by
    rintro ⟨ul, ur, fin, rkv⟩ lo v v' hI ho
    have h := hU.steady (u := ul) (v := v) (v' := v') hI ho
    simp only [ljoinM]
    rcases e1 : U.next ul v with ⟨r, ul', a⟩
    rcases e2 : U.next ul v' with ⟨r', ul'', b⟩
    rw [e1, e2] at h
    obtain ⟨rfl, rfl, ho⟩ := h
    simp only at ho
    cases r with
    | item kv =>
      obtain ⟨a1, a2, a3, a4, a5, a6, a7, a8, a9, a10, -⟩ :=
        ljoinLoop_like (L := U) (L' := U) (T := T) (sf := sf) hm kv
          (n := (curM T sf).size ur + 3) (s := ⟨ul', ur, fin, rkv⟩) (u := ⟨ul', ur, fin, rkv⟩) a b rfl rfl rfl
          (.inl (by omega))
      refine ⟨a1, ?_, (a9.trans ho).trans a10.symm⟩
      simp only
      cases hx : (ljoinLoop merge U (curM T sf) kv ((curM T sf).size ur + 3) ⟨ul', ur, fin, rkv⟩ a).2.1
      cases hy : (ljoinLoop merge U (curM T sf) kv ((curM T sf).size ur + 3) ⟨ul', ur, fin, rkv⟩ b).2.1
      rw [hx] at a2 a4 a5 a6
      rw [hy] at a3 a4 a5 a6
      simp only at a2 a3 a4 a5 a6
      subst a2 a3 a4 a5 a6
      rfl
    | done => exact ⟨rfl, rfl, ho⟩
    | timeout => exact ⟨rfl, rfl, ho⟩
    | fault e => exact ⟨rfl, rfl, ho⟩
  steadySeek h := by cases h

theorem twin_ljoin {sk : Bool} {T U : Mach} {P : Bytes → Prop} {I : U.St → Bytes → Prop}
    {R : T.St → U.St → Prop} {merge : MergeFn} (hm : MergeOk merge) (hU : Fwd sk U P I)
    (hT : Twin sk T U I R) (Tb : Table) (sf : View → Bytes → Bool) :
    Twin false (ljoinM merge T (curM Tb sf)) (ljoinM merge U (curM Tb sf)) (LjI I) (LjR R) where
  size h := hT.size h.1
  next := by
    rintro ⟨sl, sr, fin, rkv⟩ ⟨ul, ur, fin', rkv'⟩ lo w ⟨hR, h1, h2, h3⟩ hI ha
    simp only at hR h1 h2 h3
    subst h1 h2 h3
    have hI : I ul lo := hI
    have h := hT.next w hR hI ha
    simp only [ljoinM]
    rcases hm' : T.next sl w with ⟨r, s', w'⟩
    rw [hm'] at h
    obtain ⟨hfr, h⟩ := h
    simp only at hfr h
    rcases h with ⟨rfl, hex, u', hR', ⟨lo', hI'⟩, hsz, hv⟩ | ⟨hc, hv⟩
    · refine ⟨hfr, .inl ⟨rfl, hex, ⟨u', sr, fin, rkv⟩, ⟨hR', rfl, rfl, rfl⟩, ⟨lo', hI'⟩, hsz, fun v hvo => ?_⟩⟩
      obtain ⟨v', g1, g2⟩ := hv v hvo
      refine ⟨v', g1, ?_⟩
      rcases e1 : U.next ul v with ⟨r, x, a⟩
      rcases e2 : U.next u' v' with ⟨r', x', b⟩
      rw [e1, e2] at g2
      obtain ⟨rfl, rfl, ho⟩ := g2
      simp only at ho ⊢
      cases r with
      | item kv =>
        obtain ⟨a1, a2, a3, a4, a5, a6, a7, a8, a9, a10, -⟩ :=
          ljoinLoop_like (L := U) (L' := U) (T := Tb) (sf := sf) hm kv
            (n := (curM Tb sf).size sr + 3) (s := ⟨x, sr, fin, rkv⟩) (u := ⟨x, sr, fin, rkv⟩) a b rfl rfl rfl
            (.inl (by omega))
        refine ⟨a1, ?_, (a9.trans ho).trans a10.symm⟩
        simp only
        cases hx : (ljoinLoop merge U (curM Tb sf) kv ((curM Tb sf).size sr + 3) ⟨x, sr, fin, rkv⟩ a).2.1
        cases hy : (ljoinLoop merge U (curM Tb sf) kv ((curM Tb sf).size sr + 3) ⟨x, sr, fin, rkv⟩ b).2.1
        rw [hx] at a2 a4 a5 a6
        rw [hy] at a3 a4 a5 a6
        simp only at a2 a3 a4 a5 a6
        subst a2 a3 a4 a5 a6
        rfl
      | done => exact ⟨rfl, rfl, ho⟩
      | timeout => exact ⟨rfl, rfl, ho⟩
      | fault e => exact ⟨rfl, rfl, ho⟩
    · cases r with
      | done =>
        refine ⟨hfr, .inr ⟨hc, fun v hvo => ?_⟩⟩
        have := hv v hvo
        rcases hu : U.next ul v with ⟨r, u', v'⟩
        rw [hu] at this
        obtain ⟨rfl, h2, h3⟩ := this
        exact ⟨rfl, ⟨h2, rfl, rfl, rfl⟩, h3⟩
      | timeout =>
        have := hv { w with offset := w.offset } rfl
        exact absurd this.1.symm (hU.next _ hI).2.1
      | fault e =>
        refine ⟨hfr, .inr ⟨hc, fun v hvo => ?_⟩⟩
        have := hv v hvo
        rcases hu : U.next ul v with ⟨r, u', v'⟩
        rw [hu] at this
        obtain ⟨rfl, h2, h3⟩ := this
        exact ⟨rfl, ⟨h2, rfl, rfl, rfl⟩, h3⟩
      | item kv =>
        have hst := ljoinLoop_like (L := T) (L' := T) (T := Tb) (sf := sf) hm kv
            (n := (curM Tb sf).size sr + 3) (s := ⟨s', sr, fin, rkv⟩) (u := ⟨s', sr, fin, rkv⟩) w' w' rfl rfl rfl
            (.inl (by omega))
        obtain ⟨-, -, -, -, -, -, b7, -⟩ := hst
        refine ⟨hfr.trans b7.time, .inr ⟨hfr.calm hc b7.calm, fun v hvo => ?_⟩⟩
        have := hv v hvo
        rcases hu : U.next ul v with ⟨r, x, v'⟩
        rw [hu] at this
        obtain ⟨rfl, hRx, ho⟩ := this
        simp only at hRx ho
        obtain ⟨a1, a2, a3, a4, a5, a6, a7, a8, a9, a10, -⟩ :=
          ljoinLoop_like (L := T) (L' := U) (T := Tb) (sf := sf) hm kv
            (n := (curM Tb sf).size sr + 3) (s := ⟨s', sr, fin, rkv⟩) (u := ⟨x, sr, fin, rkv⟩) w' v' rfl rfl rfl
            (.inl (by omega))
        refine ⟨a1, ⟨?_, a4, a5, a6⟩, (a9.trans ho).trans a10.symm⟩
        rw [a2]
        simp only
        rw [a3]
        exact hRx
  seek h := by cases h

end Verif
