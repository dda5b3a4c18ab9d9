import Verif.Lemmas.NoDiv

/-!
# Progress and twins of whole queries
-/

namespace Verif
open Spec

/-! ## Machines with their twins -/

/-- `T` is `U` with a time limit; both can be opened at the views `PV`. -/
def Paired (sk : Bool) (PV : View → Prop) (P : Bytes → Prop) (T U : Mach) : Prop :=
  ∃ (I : U.St → Bytes → Prop) (R : T.St → U.St → Prop), Fwd sk U P I ∧ Twin sk T U I R ∧
    ∀ V, PV V → (∃ lo, I (U.start V) lo) ∧ R (T.start V) (U.start V)

theorem paired_cur {T : Table} (hT : Sorted T) (sf : View → Bytes → Bool) (PV : View → Prop) :
    Paired true PV (ViewKeys T PV) (timeoutM (curM T sf)) (curM T sf) :=
  ⟨CurI T PV, Eq, fwd_cur hT sf PV, twin_timeout (fwd_cur hT sf PV), fun _ h => ⟨⟨_, cur_start h⟩, rfl⟩⟩

theorem Paired.weaken {sk : Bool} {PV : View → Prop} {P : Bytes → Prop} {T U : Mach}
    (h : Paired sk PV P T U) : Paired false PV P T U := by
  obtain ⟨I, R, h1, h2, h3⟩ := h
  exact ⟨I, R, h1.weaken, h2.weaken, h3⟩

theorem Paired.filter {sk : Bool} {PV : View → Prop} {P : Bytes → Prop} {T U : Mach} {g : Stage}
    {f : FilterFn} (h : Paired sk PV P T U) (hf : OkF sk P f) :
    Paired sk PV P (filterM g f T) (filterM g f U) := by
  obtain ⟨I, R, h1, h2, h3⟩ := h
  exact ⟨I, R, fwd_filter h1 hf, twin_filter h1 hf h2, h3⟩

theorem Paired.filters {sk : Bool} {PV : View → Prop} {P : Bytes → Prop} {T U : Mach} {fs : List Filt}
    (h : Paired sk PV P T U) (hf : ∀ f ∈ fs, OkF sk P (pureF f.2)) :
    Paired sk PV P (withFilters fs T) (withFilters fs U) := by
  induction fs generalizing T U with
  | nil => exact h
  | cons f fs ih =>
    exact ih (h.filter (hf f List.mem_cons_self)) fun g hg => hf g (List.mem_cons_of_mem _ hg)

theorem Paired.remove {sk : Bool} {PV : View → Prop} {P : Bytes → Prop} {T U : Mach}
    (h : Paired sk PV P T U) (rm : Option (List Src)) :
    Paired false PV P (withRemove rm T) (withRemove rm U) := by
  cases rm with
  | none => exact h.weaken
  | some l =>
    obtain ⟨I, R, h1, h2, h3⟩ := h
    refine ⟨RmI I, RmR R, fwd_remove h1 l, twin_remove h1 h2 l, fun V hV => ?_⟩
    exact ⟨(h3 V hV).1, (h3 V hV).2, rfl, rfl⟩

theorem Paired.fill {sk : Bool} {PV : View → Prop} {P : Bytes → Prop} {T U : Mach}
    (h : Paired sk PV P T U) (fl : Option Src) :
    Paired false PV P (withFill fl T) (withFill fl U) := by
  cases fl with
  | none => exact h.weaken
  | some l =>
    obtain ⟨I, R, h1, h2, h3⟩ := h
    refine ⟨LjI I, LjR R, fwd_ljoin mergeFunc_ok h1 l.rows l.seekFails,
      twin_ljoin mergeFunc_ok h1 h2 l.rows l.seekFails, fun V hV => ?_⟩
    exact ⟨(h3 V hV).1, (h3 V hV).2, rfl, rfl, rfl⟩

theorem Paired.times {sk : Bool} {PV : View → Prop} {P : Bytes → Prop} {T U : Mach}
    (h : Paired sk PV P T U) (q : Query) (rm : Option (List Src)) (fl : Option Src) :
    Paired false PV P (withTimes q rm fl T) (withTimes q rm fl U) := by
  unfold withTimes
  split
  · exact (((h.filter (okF_time _ _)).remove rm).fill fl).filter (okF_time _ _)
  · exact h.fill fl

theorem Paired.offset {sk : Bool} {PV : View → Prop} {P : Bytes → Prop} {T U : Mach}
    (h : Paired sk PV P T U) (q : Query) : Paired sk PV P (withOffset q T) (withOffset q U) := by
  unfold withOffset
  split
  · exact h.filter okF_offset
  · exact h

/-! ## Plans -/

/-- The views at which the source of a query is opened: a direct query opens one. -/
def planViews (p : Plan) (V : View) : Prop := p.indirect = none → V = p.view

theorem viewKeys_head {T : Table} {t : UInt8} {k x : Bytes} {PV : View → Prop}
    (hPV : ∀ V, PV V → V = .pfx (t :: k)) (h : ViewKeys T PV x) : x.head? = some t := by
  obtain ⟨⟨V, hV, hok⟩, -⟩ := h
  rw [hPV V hV] at hok
  cases x with
  | nil => simp [View.ok] at hok
  | cons a as =>
    simp only [View.ok, List.isPrefixOf, Bool.and_eq_true, beq_iff_eq] at hok
    simp [hok.1]

theorem okF_filtIf {sk : Bool} {P : Bytes → Prop} {c : Bool} {f : Filt} (h : OkF sk P (pureF f.2)) :
    ∀ g ∈ filtIf c f, OkF sk P (pureF g.2) := by
  intro g hg
  unfold filtIf at hg
  split at hg
  · simp only [List.mem_singleton] at hg; subst hg; exact h
  · cases hg

theorem okF_rrtypeIf {sk : Bool} {P : Bytes → Prop} (q : Query) :
    ∀ g ∈ rrtypeIf q, OkF sk P (pureF g.2) := okF_filtIf (okF_rrtype _)

theorem okF_bailiwickIf {sk : Bool} {P : Bytes → Prop} (q : Query) :
    ∀ g ∈ bailiwickIf q, OkF sk P (pureF g.2) := by
  intro g hg
  unfold bailiwickIf at hg
  split at hg
  · simp only [List.mem_singleton] at hg; subst hg; exact okF_bailiwick _
  · cases hg

theorem okF_rdataNameFilter {sk : Bool} {P : Bytes → Prop} (q : Query) :
    OkF sk P (pureF (rdataNameFilter q).2) := by
  unfold rdataNameFilter
  split
  · exact okF_rrtype _
  · exact okF_rdataName

theorem mem_append_okF {sk : Bool} {P : Bytes → Prop} {a b : List Filt}
    (ha : ∀ g ∈ a, OkF sk P (pureF g.2)) (hb : ∀ g ∈ b, OkF sk P (pureF g.2)) :
    ∀ g ∈ a ++ b, OkF sk P (pureF g.2) := by
  intro g hg
  rcases List.mem_append.1 hg with h | h
  · exact ha g h
  · exact hb g h

theorem leftWildcardKey_shape {t : UInt8} {name key : Bytes} (h : leftWildcardKey t name = .ok key) :
    ∃ r, key = t :: r := by
  unfold leftWildcardKey at h
  simp only at h
  cases hr : reverseName (name.drop 2) with
  | ok rev =>
    rw [hr] at h
    simp only [Out.ok_bind] at h
    split at h
    · cases h
    · cases h; exact ⟨_, rfl⟩
  | fail => rw [hr] at h; cases h
  | fault f => rw [hr] at h; cases h

theorem out_bind_ok {α β : Type} {x : Out α} {f : α → Out β} {b : β} (h : x >>= f = .ok b) :
    ∃ a, x = .ok a ∧ f a = .ok b := by
  cases x with
  | ok a => exact ⟨a, rfl, h⟩
  | fail => cases h
  | fault e => cases h

theorem addRrtype_shape {k k' : Bytes} {t : Nat} (h : addRrtype k t = .ok k') :
    k' = k ++ varintEncode32 t := by
  unfold addRrtype at h
  split at h
  · cases h
  · cases h; rfl

/-- What every plan has in common: its filters never loop and never seek backwards. -/
structure PlanOk (p : Plan) : Prop where
  source : ∀ T : Table, ∀ f ∈ p.onSource, OkF true (ViewKeys T (planViews p)) (pureF f.2)
  index : ∀ T : Table, ∀ f ∈ p.onIndex, OkF true (ViewKeys T (· = p.view)) (pureF f.2)

theorem planViews_direct {p : Plan} (h : p.indirect = none) : ∀ V, planViews p V → V = p.view := fun _ hV => hV h

theorem plan_ok {q : Query} {p : Plan} (hr : q.rrtype < 2 ^ 32) (h : initKind q = .ok p) : PlanOk p := by
  have nil_ok : ∀ {sk : Bool} {P : Bytes → Prop}, ∀ f ∈ ([] : List Filt), OkF sk P (pureF f.2) :=
    fun f hf => by cases hf
  unfold initKind at h
  split at h
  · -- RRset
    unfold initRrset at h
    split at h
    · obtain ⟨key, hk, h⟩ := out_bind_ok h
      cases h
      obtain ⟨r, rfl⟩ := leftWildcardKey_shape hk
      refine ⟨fun T => ?_, fun T => nil_ok⟩
      exact mem_append_okF (mem_append_okF (okF_filtIf (okF_singleLabel (t := 0) (by decide)
        (fun x hx => viewKeys_head (planViews_direct rfl) hx) _)) (okF_rrtypeIf q)) (okF_bailiwickIf q)
    · split at h
      · cases h
        refine ⟨fun T => mem_append_okF (okF_rrtypeIf q) (okF_bailiwickIf q), fun T => ?_⟩
        exact okF_filtIf (okF_singleLabel (t := 1) (by decide)
          (fun x hx => viewKeys_head (fun V h => h) hx) _)
      · obtain ⟨rev, hrev, h⟩ := out_bind_ok h
        split at h
        · cases h
        · split at h
          · obtain ⟨key, hk, h⟩ := out_bind_ok h
            cases h
            exact ⟨fun T => nil_ok, fun T => nil_ok⟩
          · cases h
            exact ⟨fun T => okF_bailiwickIf q, fun T => nil_ok⟩
  · -- rdata name
    unfold initRdataName at h
    split at h
    · cases h
      refine ⟨fun T => ?_, fun T => nil_ok⟩
      intro f hf
      rcases List.mem_cons.1 hf with rfl | hf
      · exact okF_rdataNameFilter q
      · exact okF_filtIf (okF_singleLabel (t := 2) (by decide)
          (fun x hx => viewKeys_head (planViews_direct rfl) hx) _) f hf
    · split at h
      · obtain ⟨key, hk, h⟩ := out_bind_ok h
        cases h
        obtain ⟨r, rfl⟩ := leftWildcardKey_shape hk
        refine ⟨fun T f hf => ?_, fun T => ?_⟩
        · simp only [List.mem_singleton] at hf; subst hf; exact okF_rdataNameFilter q
        · exact okF_filtIf (okF_singleLabel (t := 3) (by decide)
            (fun x hx => viewKeys_head (fun V h => h) hx) _)
      · unfold initRdataExact at h
        have : ∃ key, p = { onSource := [rdataNameFilter q], view := .pfx key } := by
          simp only at h
          split at h
          · obtain ⟨key, hk, h⟩ := out_bind_ok h
            cases h; exact ⟨_, rfl⟩
          · cases h; exact ⟨_, rfl⟩
        obtain ⟨key, rfl⟩ := this
        refine ⟨fun T f hf => ?_, fun T => nil_ok⟩
        simp only [List.mem_singleton] at hf; subst hf; exact okF_rdataNameFilter q
  · -- address
    unfold initRdataIp at h
    obtain ⟨-, -, h⟩ := out_bind_ok h
    obtain ⟨-, -, h⟩ := out_bind_ok h
    obtain ⟨key, hk, h⟩ := out_bind_ok h
    have hkey := addRrtype_shape hk
    have hpre : 0 < key.length - varintLength q.rrtype := by
      rw [hkey, encode32_eq_leb hr]
      simp only [List.length_append, List.length_cons, leb_length]
      omega
    have hf : ∀ {P : Bytes → Prop}, ∀ f ∈ ([(Stage.filterRrtype, filterRrtypeIp q.rrtype key.length)] : List Filt),
        OkF true P (pureF f.2) := by
      intro P f hf
      simp only [List.mem_singleton] at hf; subst hf; exact okF_rrtypeIp hpre
    simp only at h
    split at h
    · obtain ⟨key2, hk2, h⟩ := out_bind_ok h
      obtain ⟨x, hx, h⟩ := out_bind_ok h
      cases h
      exact ⟨fun T => hf, fun T => nil_ok⟩
    · cases h
      exact ⟨fun T => hf, fun T => nil_ok⟩
  · -- raw
    unfold initRdataRaw at h
    obtain ⟨d, hd, h⟩ := out_bind_ok h
    cases h
    exact ⟨fun T => okF_rrtypeIf q, fun T => nil_ok⟩
  · cases h; exact ⟨fun T => nil_ok, fun T => nil_ok⟩
  · cases h; exact ⟨fun T => nil_ok, fun T => nil_ok⟩
  · cases h; exact ⟨fun T => nil_ok, fun T => nil_ok⟩

/-! ## The loop of a direct query -/

theorem directLoop_fwd {sk : Bool} {U : Mach} {P : Bytes → Prop} {I : U.St → Bytes → Prop}
    (hU : Fwd sk U P I) {n : Nat} :
    ∀ {u lo} v, I u lo → U.size u < n →
      let x := directLoop U n u v
      Still v x.2.2 ∧ x.1 ≠ .timeout ∧ (∃ lo', I x.2.1 lo') ∧
      U.size x.2.1 ≤ U.size u ∧
      (x.1 = .fault .diverge → ∃ k val, P k ∧ entryDecode k val = .fault .diverge) := by
  induction n with
  | zero => intros; omega
  | succ n ih =>
    intro u lo v hI hn
    have h := hU.next v hI
    simp only [directLoop]
    rcases hm : U.next u v with ⟨r, u', v'⟩
    rw [hm] at h
    obtain ⟨h1, h2, h3, h4, h5, h6⟩ := h
    simp only at h1 h2 h3 h4 h5 h6
    cases r with
    | item kv =>
      obtain ⟨hP, hI', hlt⟩ := h6 kv rfl
      simp only
      cases hd : entryDecode kv.1 kv.2 with
      | ok e => exact ⟨h1, by simp, ⟨_, hI'⟩, h5, by simp⟩
      | fault f =>
        refine ⟨h1, by simp, ⟨_, hI'⟩, h5, fun he => ?_⟩
        cases he
        exact ⟨_, _, hP, hd⟩
      | fail =>
        obtain ⟨a, b, c, d, e⟩ := ih v' hI' (by omega)
        exact ⟨h1.trans a, b, c, Nat.le_trans d h5, e⟩
    | done => exact ⟨h1, by simp, h4, h5, by simp⟩
    | timeout => exact absurd rfl h2
    | fault e => exact ⟨h1, by simp, h4, h5, fun he => by cases he; exact absurd rfl h3⟩

theorem directLoop_same {sk : Bool} {U : Mach} {P : Bytes → Prop} {I : U.St → Bytes → Prop}
    (hU : Fwd sk U P I) {n : Nat} :
    ∀ {m : Nat} {s s' : U.St} {lo lo' : Bytes} {v v' : World}, I s lo → I s' lo' →
      SameO (U.next s v) (U.next s' v') → U.size s < n → U.size s' < m →
      SameO (directLoop U n s v) (directLoop U m s' v') := by
  induction n with
  | zero => intros; omega
  | succ n ih =>
    intro m u u' lo lo' v v' hI hI' hs hn hm
    obtain ⟨m, rfl⟩ : ∃ k, m = k + 1 := ⟨m - 1, by omega⟩
    have h := hU.next v hI
    have h' := hU.next v' hI'
    simp only [directLoop]
    rcases e1 : U.next u v with ⟨r, x, a⟩
    rcases e2 : U.next u' v' with ⟨r', x', b⟩
    rw [e1, e2] at hs
    obtain ⟨rfl, rfl, ho⟩ := hs
    rw [e1] at h
    rw [e2] at h'
    simp only at ho
    cases r with
    | item kv =>
      obtain ⟨hP, hIx, hlt⟩ := h.2.2.2.2.2 kv rfl
      obtain ⟨-, -, hlt'⟩ := h'.2.2.2.2.2 kv rfl
      simp only at hIx hlt hlt'
      simp only
      cases entryDecode kv.1 kv.2 with
      | ok e => exact ⟨rfl, rfl, ho⟩
      | fault f => exact ⟨rfl, rfl, ho⟩
      | fail => exact ih hIx hIx (hU.steady hIx ho) (by omega) (by omega)
    | done => exact ⟨rfl, rfl, ho⟩
    | timeout => exact ⟨rfl, rfl, ho⟩
    | fault e => exact ⟨rfl, rfl, ho⟩

/-- The loop of `query_iter_next` with its own bound. -/
def direct (U : Mach) (u : U.St) (v : World) : QRes × U.St × World := directLoop U (U.size u + 1) u v

theorem twin_direct {sk : Bool} {T U : Mach} {P : Bytes → Prop} {I : U.St → Bytes → Prop}
    {R : T.St → U.St → Prop} (hU : Fwd sk U P I) (hT : Twin sk T U I R) {n : Nat} :
    ∀ {s : T.St} {u : U.St} {lo} w, R s u → I u lo → w.armed = true → U.size u < n →
      let x := directLoop T n s w
      TimeFrame w x.2.2 ∧
      ((x.1 = .timeout ∧ Expired w x.2.2 ∧ ∃ u', R x.2.1 u' ∧ (∃ lo', I u' lo') ∧
          U.size u' ≤ U.size u ∧
          ∀ v, v.offset = w.offset → ∃ v', v'.offset = x.2.2.offset ∧
            SameO (direct U u v) (direct U u' v')) ∨
       (Calm w x.2.2 ∧ ∀ v, v.offset = w.offset → x.1 = (direct U u v).1 ∧
          R x.2.1 (direct U u v).2.1 ∧ x.2.2.offset = (direct U u v).2.2.offset)) := by
  induction n with
  | zero => intros; omega
  | succ n ih =>
    intro s u lo w hR hI ha hn
    have h := hT.next w hR hI ha
    simp only [directLoop]
    rcases hm : T.next s w with ⟨r, s', w'⟩
    rw [hm] at h
    obtain ⟨hfr, h⟩ := h
    simp only at hfr h
    rcases h with ⟨rfl, hex, u', hR', ⟨lo', hI'⟩, hsz, hv⟩ | ⟨hc, hv⟩
    · refine ⟨hfr, .inl ⟨rfl, hex, u', hR', ⟨lo', hI'⟩, hsz, fun v hvo => ?_⟩⟩
      obtain ⟨v', h1, h2⟩ := hv v hvo
      exact ⟨v', h1, directLoop_same hU hI hI' h2 (Nat.lt_succ_self _) (Nat.lt_succ_self _)⟩
    · have hend : (∀ kv, r ≠ .item kv) → r ≠ .timeout → 
          ∀ v, v.offset = w.offset → (direct U u v).1 = (match r with
            | .item _ => QRes.failure | .done => .failure | .timeout => .timeout | .fault f => .fault f) ∧
          R s' (direct U u v).2.1 ∧ w'.offset = (direct U u v).2.2.offset := by
        intro hni hnt v hvo
        have := hv v hvo
        simp only [direct, directLoop]
        rcases hu : U.next u v with ⟨r', u', v'⟩
        rw [hu] at this
        obtain ⟨rfl, h2, h3⟩ := this
        cases r with
        | item kv => exact absurd rfl (hni kv)
        | done => exact ⟨rfl, h2, h3⟩
        | timeout => exact absurd rfl hnt
        | fault f => exact ⟨rfl, h2, h3⟩
      cases r with
      | done =>
        refine ⟨hfr, .inr ⟨hc, fun v hvo => ?_⟩⟩
        obtain ⟨a, b, c⟩ := hend (by simp) (by simp) v hvo
        exact ⟨a.symm, b, c⟩
      | timeout =>
        have := hv { w with offset := w.offset } rfl
        exact absurd this.1.symm (hU.next _ hI).2.1
      | fault e =>
        refine ⟨hfr, .inr ⟨hc, fun v hvo => ?_⟩⟩
        obtain ⟨a, b, c⟩ := hend (by simp) (by simp) v hvo
        exact ⟨a.symm, b, c⟩
      | item kv =>
        obtain ⟨x, hRx, hIx, hltx, hstep⟩ : ∃ x, R s' x ∧ I x kv.1 ∧ U.size x < U.size u ∧
            ∀ v, v.offset = w.offset → ∃ v', U.next u v = (.item kv, x, v') ∧ v'.offset = w'.offset := by
          have h0 := hv w rfl
          have hp := (hU.next w hI).2.2.2.2.2 kv h0.1.symm
          refine ⟨_, h0.2.1, hp.2.1, hp.2.2, fun v hvo => ?_⟩
          have h1 := hv v hvo
          have h2 := hU.steady (v := v) (v' := w) hI hvo
          rcases hu : U.next u v with ⟨r, u', v'⟩
          rw [hu] at h1 h2
          obtain ⟨rfl, -, h3⟩ := h1
          exact ⟨v', by rw [← h2.2.1], h3.symm⟩
        simp only
        cases hd : entryDecode kv.1 kv.2 with
        | ok e =>
          refine ⟨hfr, .inr ⟨hc, fun v hvo => ?_⟩⟩
          obtain ⟨v2, h1, h2⟩ := hstep v hvo
          simp only [direct, directLoop, h1, hd]
          exact ⟨trivial, hRx, h2.symm⟩
        | fault e =>
          refine ⟨hfr, .inr ⟨hc, fun v hvo => ?_⟩⟩
          obtain ⟨v2, h1, h2⟩ := hstep v hvo
          simp only [direct, directLoop, h1, hd]
          exact ⟨trivial, hRx, h2.symm⟩
        | fail =>
          obtain ⟨hfr3, ih⟩ := ih (s := s') (u := x) (lo := kv.1) w' hRx hIx (hfr.armed.trans ha) (by omega)
          refine ⟨hfr.trans hfr3, ?_⟩
          have heq : ∀ v, v.offset = w.offset → ∃ v2, v2.offset = w'.offset ∧
              SameO (direct U u v) (direct U x v2) := by
            intro v hvo
            obtain ⟨v2, h1, h2⟩ := hstep v hvo
            refine ⟨v2, h2, ?_⟩
            have : direct U u v = directLoop U (U.size u) x v2 := by
              simp only [direct, directLoop, h1, hd]
            rw [this]
            exact directLoop_same hU hIx hIx (hU.steady hIx rfl) hltx (Nat.lt_succ_self _)
          rcases ih with ⟨hr, hex, u', hR', hI', hsz, hv'⟩ | ⟨hc3, hv'⟩
          · refine .inl ⟨hr, hfr.expired hc hex, u', hR', hI', by omega, fun v hvo => ?_⟩
            obtain ⟨v2, h1, h2⟩ := heq v hvo
            obtain ⟨v3, h3, h4⟩ := hv' v2 h1
            exact ⟨v3, h3, h2.trans h4⟩
          · refine .inr ⟨hfr.calm hc hc3, fun v hvo => ?_⟩
            obtain ⟨v2, h1, h2⟩ := heq v hvo
            have h3 := hv' v2 h1
            rw [h2.1, h2.2.1, h2.2.2]
            exact h3


/-! ## The loop of an indirect query -/

/-- Rounds the loop needs. -/
def rounds (X : Mach) {β : Type} (i : X.St) (m : Option β) : Nat :=
  2 * X.size i + (if m.isSome then 1 else 0)

/-- The source can be opened at any key with a prefix. -/
def Opens {U : Mach} (I : U.St → Bytes → Prop) : Prop := ∀ k, ∃ lo, I (U.start (.pfx k)) lo

/-- Invariant of the open lookup. -/
def LookI {U : Mach} (I : U.St → Bytes → Prop) (m : Option U.St) : Prop := ∀ u, m = some u → ∃ lo, I u lo

theorem indirectLoop_fwd {sk ski : Bool} {X U : Mach} {P PX : Bytes → Prop} {I : U.St → Bytes → Prop}
    {J : X.St → Bytes → Prop} (q : Query) (tb : UInt8) (hX : Fwd ski X PX J) (hU : Fwd sk U P I)
    (ho : Opens I) {n : Nat} :
    ∀ {i lo m} v, J i lo → LookI I m → rounds X i m < n →
      let x := indirectLoop q tb X U n i m v
      Still v x.2.2 ∧ x.1 ≠ .timeout ∧ (∃ lo', J x.2.1.1 lo') ∧ LookI I x.2.1.2 ∧
      X.size x.2.1.1 ≤ X.size i ∧
      (x.1 = .fault .diverge → ∃ k val, P k ∧ entryDecode k val = .fault .diverge) := by
  induction n with
  | zero => intros; omega
  | succ n ih =>
    intro i lo m v hJ hm hn
    cases m with
    | some u =>
      obtain ⟨lo2, hI⟩ := hm u rfl
      obtain ⟨h1, h2, h3, h4, h5⟩ := directLoop_fwd hU v hI (Nat.lt_succ_self (U.size u))
      simp only [Nat.succ_eq_add_one] at h1 h2 h3 h4 h5
      simp only [indirectLoop]
      rcases hd : directLoop U (U.size u + 1) u v with ⟨r, u', v'⟩
      rw [hd] at h1 h2 h3 h4 h5
      simp only at h1 h2 h3 h4 h5
      have hl : LookI I (some u') := fun x hx => by cases hx; exact h3
      cases r with
      | failure =>
        simp only
        have hn' : rounds X (β := U.St) i none < n := by
          simp only [rounds, Option.isSome_some, Option.isSome_none, if_true, Bool.false_eq_true, if_false] at hn ⊢
          omega
        obtain ⟨a, b, c, d, e, f⟩ := ih (m := none) v' hJ (fun x hx => by cases hx) hn'
        exact ⟨h1.trans a, b, c, d, e, f⟩
      | entry e => exact ⟨h1, by simp, ⟨_, hJ⟩, hl, Nat.le_refl _, by simp⟩
      | timeout => exact absurd rfl h2
      | fault f => exact ⟨h1, by simp, ⟨_, hJ⟩, hl, Nat.le_refl _, h5⟩
    | none =>
      have h := hX.next v hJ
      simp only [indirectLoop]
      rcases hx : X.next i v with ⟨r, i', v'⟩
      rw [hx] at h
      obtain ⟨h1, h2, h3, h4, h5, h6⟩ := h
      simp only at h1 h2 h3 h4 h5 h6
      have hl : LookI I (none : Option U.St) := fun x hx => by cases hx
      cases r with
      | item kv =>
        obtain ⟨-, hJ', hlt⟩ := h6 kv rfl
        simp only
        have hnd := NoDiv.indirectKey q tb kv
        cases hk : indirectKey q tb kv with
        | fail => exact ⟨h1, by simp, ⟨_, hJ'⟩, hl, h5, by simp⟩
        | fault f =>
          rw [hk] at hnd
          exact ⟨h1, by simp, ⟨_, hJ'⟩, hl, h5, fun he => by cases he; exact absurd rfl hnd⟩
        | ok o =>
          cases o with
          | none =>
            simp only
            have hn' : rounds X (β := U.St) i' none < n := by
              simp only [rounds, Option.isSome_none, Bool.false_eq_true, if_false] at hn ⊢
              omega
            obtain ⟨a, b, c, d, e, f⟩ := ih (m := none) v' hJ' hl hn'
            exact ⟨h1.trans a, b, c, d, Nat.le_trans e h5, f⟩
          | some k =>
            simp only
            have hn' : rounds X (β := U.St) i' (some (U.start (.pfx k))) < n := by
              simp only [rounds, Option.isSome_none, Option.isSome_some, Bool.false_eq_true, if_false, if_true] at hn ⊢
              omega
            obtain ⟨a, b, c, d, e, f⟩ := ih (m := some (U.start (.pfx k))) v' hJ'
              (fun x hx => by cases hx; exact ho k) hn'
            exact ⟨h1.trans a, b, c, d, Nat.le_trans e h5, f⟩
      | done => exact ⟨h1, by simp, h4, hl, h5, by simp⟩
      | timeout => exact absurd rfl h2
      | fault e => exact ⟨h1, by simp, h4, hl, h5, fun he => by cases he; exact absurd rfl h3⟩

/-- Two states about to do the same thing. -/
def HeadSame (X U : Mach) (i i' : X.St) (m m' : Option U.St) (v v' : World) : Prop :=
  match m, m' with
  | some u, some u' => i = i' ∧ SameO (direct U u v) (direct U u' v')
  | none, none => SameO (X.next i v) (X.next i' v')
  | _, _ => False

theorem indirectLoop_same {sk ski : Bool} {X U : Mach} {P PX : Bytes → Prop} {I : U.St → Bytes → Prop}
    {J : X.St → Bytes → Prop} {q q' : Query} {tb : UInt8} (hq : ∀ kv, indirectKey q tb kv = indirectKey q' tb kv)
    (hX : Fwd ski X PX J) (hU : Fwd sk U P I) (ho : Opens I) {n : Nat} :
    ∀ {n' : Nat} {i i' : X.St} {lo lo' : Bytes} {m m' : Option U.St} {v v' : World}, J i lo → J i' lo' →
      LookI I m → LookI I m' → HeadSame X U i i' m m' v v' → rounds X i m < n → rounds X i' m' < n' →
      SameO (indirectLoop q tb X U n i m v) (indirectLoop q' tb X U n' i' m' v') := by
  induction n with
  | zero => intros; omega
  | succ n ih =>
    intro n' i i' lo lo' m m' v v' hJ hJ' hm hm' hs hn hn'
    obtain ⟨n', rfl⟩ : ∃ k, n' = k + 1 := ⟨n' - 1, by omega⟩
    have hl : LookI I (none : Option U.St) := fun x hx => by cases hx
    cases m with
    | some u =>
      cases m' with
      | none => exact hs.elim
      | some u' =>
        obtain ⟨rfl, hs⟩ := hs
        simp only [direct] at hs
        simp only [indirectLoop]
        rcases e1 : directLoop U (U.size u + 1) u v with ⟨r, x, a⟩
        rcases e2 : directLoop U (U.size u' + 1) u' v' with ⟨r', x', b⟩
        rw [e1, e2] at hs
        obtain ⟨rfl, rfl, ho'⟩ := hs
        simp only at ho'
        cases r with
        | failure =>
          simp only
          refine ih hJ hJ hl hl (hX.steady hJ ho') ?_ ?_
          all_goals
            simp only [rounds, Option.isSome_some, Option.isSome_none, if_true, Bool.false_eq_true, if_false] at hn hn' ⊢
            omega
        | entry e => exact ⟨rfl, rfl, ho'⟩
        | timeout => exact ⟨rfl, rfl, ho'⟩
        | fault f => exact ⟨rfl, rfl, ho'⟩
    | none =>
      cases m' with
      | some u => exact hs.elim
      | none =>
        have h := hX.next v hJ
        have h' := hX.next v' hJ'
        simp only [HeadSame] at hs
        simp only [indirectLoop]
        rcases e1 : X.next i v with ⟨r, x, a⟩
        rcases e2 : X.next i' v' with ⟨r', x', b⟩
        rw [e1, e2] at hs
        obtain ⟨rfl, rfl, ho'⟩ := hs
        rw [e1] at h
        rw [e2] at h'
        simp only at ho'
        cases r with
        | item kv =>
          obtain ⟨-, hJx, hlt⟩ := h.2.2.2.2.2 kv rfl
          obtain ⟨-, -, hlt'⟩ := h'.2.2.2.2.2 kv rfl
          simp only at hJx hlt hlt'
          simp only [hq kv]
          cases indirectKey q' tb kv with
          | fail => exact ⟨rfl, rfl, ho'⟩
          | fault f => exact ⟨rfl, rfl, ho'⟩
          | ok o =>
            cases o with
            | none =>
              simp only
              refine ih hJx hJx hl hl (hX.steady hJx ho') ?_ ?_
              all_goals
                simp only [rounds, Option.isSome_none, Bool.false_eq_true, if_false] at hn hn' ⊢
                omega
            | some k =>
              simp only
              obtain ⟨lo2, hI⟩ := ho k
              have hlk : LookI I (some (U.start (.pfx k))) := fun x hx => by cases hx; exact ho k
              refine ih hJx hJx hlk hlk ⟨rfl, ?_⟩ ?_ ?_
              · exact directLoop_same hU hI hI (hU.steady hI ho') (Nat.lt_succ_self _) (Nat.lt_succ_self _)
              all_goals
                simp only [rounds, Option.isSome_none, Option.isSome_some, Bool.false_eq_true, if_false, if_true] at hn hn' ⊢
                omega
        | done => exact ⟨rfl, rfl, ho'⟩
        | timeout => exact ⟨rfl, rfl, ho'⟩
        | fault e => exact ⟨rfl, rfl, ho'⟩

/-- The loop of `query_iter_next_name_indirect` with its own bound. -/
def indirect (q : Query) (tb : UInt8) (X U : Mach) (s : X.St × Option U.St) (v : World) :
    QRes × (X.St × Option U.St) × World :=
  indirectLoop q tb X U (2 * X.size s.1 + 3) s.1 s.2 v

theorem rounds_lt {X : Mach} {β : Type} (i : X.St) (m : Option β) : rounds X i m < 2 * X.size i + 3 := by
  unfold rounds; split <;> omega

/-- Twin states of the open lookup. -/
def LookR {T U : Mach} (R : T.St → U.St → Prop) : Option T.St → Option U.St → Prop
  | some s, some u => R s u
  | none, none => True
  | _, _ => False

theorem twin_indirect {sk ski : Bool} {Y X T U : Mach} {P PX : Bytes → Prop} {I : U.St → Bytes → Prop}
    {J : X.St → Bytes → Prop} {R : T.St → U.St → Prop} {K : Y.St → X.St → Prop}
    {q q' : Query} {tb : UInt8} (hq : ∀ kv, indirectKey q tb kv = indirectKey q' tb kv)
    (hX : Fwd ski X PX J) (hU : Fwd sk U P I) (ho : Opens I) (hT : Twin sk T U I R) (hY : Twin ski Y X J K)
    (hR0 : ∀ k, R (T.start (.pfx k)) (U.start (.pfx k))) {n : Nat} :
    ∀ {y : Y.St} {i : X.St} {lo : Bytes} {mt : Option T.St} {m : Option U.St} (w : World),
      K y i → J i lo → LookR R mt m → LookI I m → w.armed = true → rounds X i m < n →
      let x := indirectLoop q tb Y T n y mt w
      TimeFrame w x.2.2 ∧
      ((x.1 = .timeout ∧ Expired w x.2.2 ∧ ∃ s' : X.St × Option U.St, K x.2.1.1 s'.1 ∧ LookR R x.2.1.2 s'.2 ∧
          (∃ lo', J s'.1 lo') ∧ LookI I s'.2 ∧
          ∀ v, v.offset = w.offset → ∃ v', v'.offset = x.2.2.offset ∧
            SameO (indirect q' tb X U (i, m) v) (indirect q' tb X U s' v')) ∨
       (Calm w x.2.2 ∧ ∀ v, v.offset = w.offset → x.1 = (indirect q' tb X U (i, m) v).1 ∧
          K x.2.1.1 (indirect q' tb X U (i, m) v).2.1.1 ∧
          LookR R x.2.1.2 (indirect q' tb X U (i, m) v).2.1.2 ∧
          x.2.2.offset = (indirect q' tb X U (i, m) v).2.2.offset)) := by
  have hrefl : ∀ kv, indirectKey q' tb kv = indirectKey q' tb kv := fun _ => rfl
  have hl : LookI I (none : Option U.St) := fun x hx => by cases hx
  induction n with
  | zero => intros; omega
  | succ n ih =>
    intro y i lo mt m w hK hJ hR hm ha hn
    -- after some steps both sides are at states that continue in the same way
    have next : ∀ (y2 : Y.St) (i2 : X.St) (lo2 : Bytes) (mt2 : Option T.St) (m2 : Option U.St) (w2 : World),
        K y2 i2 → J i2 lo2 → LookR R mt2 m2 → LookI I m2 → TimeFrame w w2 → Calm w w2 → rounds X i2 m2 < n →
        (∀ v, v.offset = w.offset → ∃ v2, v2.offset = w2.offset ∧
          SameO (indirect q' tb X U (i, m) v) (indirect q' tb X U (i2, m2) v2)) →
        let x := indirectLoop q tb Y T n y2 mt2 w2
        TimeFrame w x.2.2 ∧
        ((x.1 = .timeout ∧ Expired w x.2.2 ∧ ∃ s' : X.St × Option U.St, K x.2.1.1 s'.1 ∧ LookR R x.2.1.2 s'.2 ∧
            (∃ lo', J s'.1 lo') ∧ LookI I s'.2 ∧
            ∀ v, v.offset = w.offset → ∃ v', v'.offset = x.2.2.offset ∧
              SameO (indirect q' tb X U (i, m) v) (indirect q' tb X U s' v')) ∨
         (Calm w x.2.2 ∧ ∀ v, v.offset = w.offset → x.1 = (indirect q' tb X U (i, m) v).1 ∧
            K x.2.1.1 (indirect q' tb X U (i, m) v).2.1.1 ∧
            LookR R x.2.1.2 (indirect q' tb X U (i, m) v).2.1.2 ∧
            x.2.2.offset = (indirect q' tb X U (i, m) v).2.2.offset)) := by
      intro y2 i2 lo2 mt2 m2 w2 hK2 hJ2 hR2 hm2 hf2 hc2 hn2 heq
      obtain ⟨hfr3, ih⟩ := ih w2 hK2 hJ2 hR2 hm2 (hf2.armed.trans ha) hn2
      refine ⟨hf2.trans hfr3, ?_⟩
      rcases ih with ⟨hr, hex, s', h1, h2, h3, h4, hv'⟩ | ⟨hc3, hv'⟩
      · refine .inl ⟨hr, hf2.expired hc2 hex, s', h1, h2, h3, h4, fun v hvo => ?_⟩
        obtain ⟨v2, g1, g2⟩ := heq v hvo
        obtain ⟨v3, g3, g4⟩ := hv' v2 g1
        exact ⟨v3, g3, g2.trans g4⟩
      · refine .inr ⟨hf2.calm hc2 hc3, fun v hvo => ?_⟩
        obtain ⟨v2, g1, g2⟩ := heq v hvo
        have g3 := hv' v2 g1
        rw [g2.1, g2.2.1, g2.2.2]
        exact g3
    cases m with
    | some u =>
      cases mt with
      | none => exact hR.elim
      | some s =>
        obtain ⟨lo2, hI⟩ := hm u rfl
        have hsz : T.size s = U.size u := hT.size hR
        obtain ⟨hfr, h⟩ := twin_direct hU hT w hR hI ha (n := T.size s + 1) (by omega)
        simp only [indirectLoop]
        rcases hd : directLoop T (T.size s + 1) s w with ⟨r, s', w'⟩
        rw [hd] at hfr h
        simp only at hfr h
        rcases h with ⟨rfl, hex, u', hR', hI', -, hv⟩ | ⟨hc, hv⟩
        · refine ⟨hfr, .inl ⟨rfl, hex, (i, some u'), hK, hR', ⟨lo, hJ⟩, fun x hx => by cases hx; exact hI', fun v hvo => ?_⟩⟩
          obtain ⟨v', h1, h2⟩ := hv v hvo
          exact ⟨v', h1, indirectLoop_same hrefl hX hU ho hJ hJ hm (fun x hx => by cases hx; exact hI')
            ⟨rfl, h2⟩ (rounds_lt _ _) (rounds_lt _ _)⟩
        · have hstep : ∀ v, v.offset = w.offset → r ≠ .failure →
              indirect q' tb X U (i, some u) v = (r, (i, some (direct U u v).2.1), (direct U u v).2.2) := by
            intro v hvo hne
            have h1 := (hv v hvo).1
            simp only [indirect, indirectLoop]
            simp only [direct] at h1 ⊢
            rcases hu : directLoop U (U.size u + 1) u v with ⟨r', u', v'⟩
            rw [hu] at h1
            simp only at h1
            subst h1
            cases r with
            | failure => exact absurd rfl hne
            | entry e => rfl
            | timeout => rfl
            | fault f => rfl
          have hfin : r ≠ .failure → ∀ v, v.offset = w.offset → r = (indirect q' tb X U (i, some u) v).1 ∧
              K y (indirect q' tb X U (i, some u) v).2.1.1 ∧
              LookR R (some s') (indirect q' tb X U (i, some u) v).2.1.2 ∧
              w'.offset = (indirect q' tb X U (i, some u) v).2.2.offset := by
            intro hne v hvo
            rw [hstep v hvo hne]
            obtain ⟨h1, h2, h3⟩ := hv v hvo
            exact ⟨rfl, hK, h2, h3⟩
          cases r with
          | entry e => exact ⟨hfr, .inr ⟨hc, hfin (by simp)⟩⟩
          | timeout => exact ⟨hfr, .inr ⟨hc, hfin (by simp)⟩⟩
          | fault f => exact ⟨hfr, .inr ⟨hc, hfin (by simp)⟩⟩
          | failure =>
            simp only
            have hn' : rounds X (β := U.St) i none < n := by
              simp only [rounds, Option.isSome_some, Option.isSome_none, if_true, Bool.false_eq_true, if_false] at hn ⊢
              omega
            refine next y i lo none none w' hK hJ trivial hl hfr hc hn' fun v hvo => ?_
            obtain ⟨h1, h2, h3⟩ := hv v hvo
            refine ⟨(direct U u v).2.2, h3.symm, ?_⟩
            have : indirect q' tb X U (i, some u) v =
                indirectLoop q' tb X U (2 * X.size i + 2) i none (direct U u v).2.2 := by
              simp only [indirect, indirectLoop]
              simp only [direct] at h1 ⊢
              rcases hu : directLoop U (U.size u + 1) u v with ⟨r', u', v'⟩
              rw [hu] at h1
              simp only at h1
              subst h1
              rfl
            rw [this]
            refine indirectLoop_same hrefl hX hU ho hJ hJ hl hl (SameO.refl _) ?_ (rounds_lt _ _)
            simp [rounds]
    | none =>
      cases mt with
      | some s => exact hR.elim
      | none =>
        have h := hY.next w hK hJ ha
        simp only [indirectLoop]
        rcases hd : Y.next y w with ⟨r, y', w'⟩
        rw [hd] at h
        obtain ⟨hfr, h⟩ := h
        simp only at hfr h
        rcases h with ⟨rfl, hex, i', hK', ⟨lo', hJ'⟩, -, hv⟩ | ⟨hc, hv⟩
        · refine ⟨hfr, .inl ⟨rfl, hex, (i', none), hK', trivial, ⟨lo', hJ'⟩, hl, fun v hvo => ?_⟩⟩
          obtain ⟨v', h1, h2⟩ := hv v hvo
          exact ⟨v', h1, indirectLoop_same hrefl hX hU ho hJ hJ' hl hl h2 (rounds_lt _ _) (rounds_lt _ _)⟩
        · cases r with
          | timeout =>
            have := hv w rfl
            exact absurd this.1.symm (hX.next _ hJ).2.1
          | done =>
            refine ⟨hfr, .inr ⟨hc, fun v hvo => ?_⟩⟩
            have := hv v hvo
            simp only [indirect, indirectLoop]
            rcases hu : X.next i v with ⟨r', i', v'⟩
            rw [hu] at this
            obtain ⟨rfl, h2, h3⟩ := this
            exact ⟨rfl, h2, trivial, h3⟩
          | fault e =>
            refine ⟨hfr, .inr ⟨hc, fun v hvo => ?_⟩⟩
            have := hv v hvo
            simp only [indirect, indirectLoop]
            rcases hu : X.next i v with ⟨r', i', v'⟩
            rw [hu] at this
            obtain ⟨rfl, h2, h3⟩ := this
            exact ⟨rfl, h2, trivial, h3⟩
          | item kv =>
            obtain ⟨x, hKx, hJx, hltx, hstep⟩ : ∃ x, K y' x ∧ J x kv.1 ∧ X.size x < X.size i ∧
                ∀ v, v.offset = w.offset → ∃ v', X.next i v = (.item kv, x, v') ∧ v'.offset = w'.offset := by
              have h0 := hv w rfl
              have hp := (hX.next w hJ).2.2.2.2.2 kv h0.1.symm
              refine ⟨_, h0.2.1, hp.2.1, hp.2.2, fun v hvo => ?_⟩
              have h1 := hv v hvo
              have h2 := hX.steady (v := v) (v' := w) hJ hvo
              rcases hu : X.next i v with ⟨r, u', v'⟩
              rw [hu] at h1 h2
              obtain ⟨rfl, -, h3⟩ := h1
              exact ⟨v', by rw [← h2.2.1], h3.symm⟩
            simp only
            cases hk : indirectKey q tb kv with
            | fail =>
              refine ⟨hfr, .inr ⟨hc, fun v hvo => ?_⟩⟩
              obtain ⟨v2, h1, h2⟩ := hstep v hvo
              simp only [indirect, indirectLoop, h1, ← hq kv, hk]
              exact ⟨trivial, hKx, trivial, h2.symm⟩
            | fault f =>
              refine ⟨hfr, .inr ⟨hc, fun v hvo => ?_⟩⟩
              obtain ⟨v2, h1, h2⟩ := hstep v hvo
              simp only [indirect, indirectLoop, h1, ← hq kv, hk]
              exact ⟨trivial, hKx, trivial, h2.symm⟩
            | ok o =>
              cases o with
              | none =>
                simp only
                have hn' : rounds X (β := U.St) x none < n := by
                  simp only [rounds, Option.isSome_none, Bool.false_eq_true, if_false] at hn ⊢
                  omega
                refine next y' x kv.1 none none w' hKx hJx trivial hl hfr hc hn' fun v hvo => ?_
                obtain ⟨v2, h1, h2⟩ := hstep v hvo
                refine ⟨v2, h2, ?_⟩
                have : indirect q' tb X U (i, none) v =
                    indirectLoop q' tb X U (2 * X.size i + 2) x none v2 := by
                  simp only [indirect, indirectLoop, h1, ← hq kv, hk]
                rw [this]
                refine indirectLoop_same hrefl hX hU ho hJx hJx hl hl (SameO.refl _) ?_ (rounds_lt _ _)
                simp only [rounds, Option.isSome_none, Bool.false_eq_true, if_false]
                omega
              | some k =>
                simp only
                have hlk : LookI I (some (U.start (.pfx k))) := fun x hx => by cases hx; exact ho k
                have hn' : rounds X x (some (U.start (.pfx k))) < n := by
                  simp only [rounds, Option.isSome_none, Option.isSome_some, Bool.false_eq_true, if_false, if_true] at hn ⊢
                  omega
                refine next y' x kv.1 (some (T.start (.pfx k))) (some (U.start (.pfx k))) w' hKx hJx (hR0 k) hlk
                  hfr hc hn' fun v hvo => ?_
                obtain ⟨v2, h1, h2⟩ := hstep v hvo
                refine ⟨v2, h2, ?_⟩
                have : indirect q' tb X U (i, none) v =
                    indirectLoop q' tb X U (2 * X.size i + 2) x (some (U.start (.pfx k))) v2 := by
                  simp only [indirect, indirectLoop, h1, ← hq kv, hk]
                rw [this]
                refine indirectLoop_same hrefl hX hU ho hJx hJx hlk hlk ⟨rfl, SameO.refl _⟩ ?_ (rounds_lt _ _)
                simp only [rounds, Option.isSome_some, if_true]
                omega

end Verif
