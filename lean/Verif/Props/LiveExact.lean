import Verif.Lemmas.LiveExact
import Verif.Props.Rrset
import Verif.Props.Live

/-!
# C67: which RRsets an open iterator returns while its query changes
-/

namespace Verif
open Spec

/-- From the rows in a view to the records of the table. -/
theorem LiveReturns.records {t : Bool} {K : Query → KV → Bool} {v : Rec → Bool} {want : Query → Rec → Bool} :
    ∀ {cs : List LiveCall} {Ts : List Rec}, (∀ x ∈ Ts, x.legal) → (∀ x ∈ Ts, ∀ q, want q x = (v x && K q x.row)) →
    LiveReturns t decodeRow K ((Ts.filter v).map Rec.row) cs → LiveReturns t (fun x => some x.entry) want Ts cs
  | [], _, _, _, _ => .nil
  | c :: cs, Ts, hleg, hw, h => by
    have out : ∀ {q : Query} {l : List Rec}, l ⊆ Ts → (∀ y ∈ (l.filter v).map Rec.row, K q y = false) → ∀ y ∈ l, want q y = false := by
      intro q l hl h y hy
      rw [hw y (hl hy)]
      cases hv : v y with
      | false => rfl
      | true => exact h _ (List.mem_map.2 ⟨y, List.mem_filter.2 ⟨hy, hv⟩, rfl⟩)
    generalize hX : (Ts.filter v).map Rec.row = X at h
    cases h with
    | entry hD hx hs hr hcs =>
      obtain ⟨l1, l2, h1, rfl, h2⟩ := List.map_eq_append_iff.1 hX
      obtain ⟨m1, m2, rfl, rfl, rfl⟩ := List.filter_eq_append_iff.1 h1
      obtain ⟨x, l3, h3, rfl, rfl⟩ := List.map_eq_cons_iff.1 h2
      obtain ⟨m3, m4, rfl, hm3, hv, rfl⟩ := List.filter_eq_cons_iff.1 h3
      rw [show m1 ++ (m3 ++ x :: m4) = (m1 ++ m3) ++ x :: m4 by simp] at hw hleg out ⊢
      have hx' := hleg x (by simp)
      rw [decodeRow_row hx'] at hs
      refine .entry (out (by simp) ?_) ?_ hs hr (LiveReturns.records (fun y hy => hleg y (by simp [hy]))
        (fun y hy q => hw y (by simp [hy]) q) hcs)
      · rw [List.filter_append, List.filter_eq_nil_iff.2 hm3, List.append_nil]
        exact hD
      · rw [hw x (by simp), hv, hx]; rfl
    | failure hD hr hcs =>
      obtain ⟨l1, l2, h1, rfl, rfl⟩ := List.map_eq_append_iff.1 hX
      obtain ⟨m1, m2, rfl, rfl, rfl⟩ := List.filter_eq_append_iff.1 h1
      refine .failure (out (fun _ h => h) ?_) hr (LiveReturns.records (fun y hy => hleg y (by simp [hy]))
        (fun y hy q => hw y (by simp [hy]) q) hcs)
      rw [List.filter_append, List.map_append]
      exact hD
    | timeout ht hD hr hcs =>
      obtain ⟨l1, l2, h1, rfl, rfl⟩ := List.map_eq_append_iff.1 hX
      obtain ⟨m1, m2, rfl, rfl, rfl⟩ := List.filter_eq_append_iff.1 h1
      exact .timeout ht (out (by simp) hD) hr (LiveReturns.records (fun y hy => hleg y (by simp [hy]))
        (fun y hy q => hw y (by simp [hy]) q) hcs)

/-- A direct query over a plain table while it changes, given what its view and filters do with the records. -/
theorem live_direct {A : Arith} {T : Libs} {Ts : List Rec} (hS : Stored Ts) (sf : View → Bytes → Bool) {q0 : Query} {p : Plan}
    (hp : p.indirect = none) (ho : q0.offset = 0) {want : Query → Rec → Bool}
    (hG : ∀ f ∈ p.onSource, ∀ q, Good (liveFilter q0 p.view.lo.length f q) (passes (liveFilter q0 p.view.lo.length f q))
      (rowsIn (rowsOf Ts) p.view))
    (hT : ∀ x ∈ Ts, inView p.view x.key = true → timed x = true)
    (hw : ∀ x ∈ Ts, ∀ q, want q x = (inView p.view x.key &&
      ((p.onSource.all fun f => passes (liveFilter q0 p.view.lo.length f q) x.row) && liveTimePass q0 q x.row)))
    (os : List LiveOp) (w : World) :
    let L := liveAssemble q0 (plainSources (curM (rowsOf Ts) sf)) p
    (q0.lim.active = true → ∀ c ∈ liveRun A T q0 L os q0 (L.at q0).start w, c.query.lim.active = true) →
    LiveReturns q0.lim.active (fun x => some x.entry) want Ts (liveRun A T q0 L os q0 (L.at q0).start w) := by
  intro L hl
  have h1 := ((skipsQ_timeout (T := rowsOf Ts) hS.sorted sf q0 (fun _ => True) p.view).filters (q0 := q0) (n := p.view.lo.length) p.onSource
    fun f hf q _ => hG f hf q).times q0 (by
      intro _ kv hkv
      obtain ⟨x, hx, rfl, hv⟩ := rowsIn_rec hkv
      exact timed_unpack (hS.legal x hx) (hT x hx hv))
  have hoff : ∀ M, liveOffset q0 M = M := fun M => if_neg (by omega)
  have hsrc : L.source = liveTimes q0 none none
      (liveFilters q0 p.view.lo.length p.onSource (liveTimeout q0 (curM (rowsOf Ts) sf))) := hoff _
  rw [← hsrc] at h1
  obtain ⟨R, hSk, h0, hR⟩ := h1
  have hst : (L.at q0).start = .direct (L.source.start p.view) := by
    unfold Built.start
    have : (L.at q0).indirect = none := hp
    rw [this]
    rfl
  rw [hst] at hl ⊢
  have := live_run_direct (A := A) (T := T) (q0 := q0) (L := L) hp (fun q => hSk q trivial) (fun h => (hR h).2)
    (fun kv hkv => by
      obtain ⟨x, hx, rfl, hv⟩ := rowsIn_rec hkv
      exact ⟨_, Rec.decode (hS.legal x hx)⟩) os q0 _ w _ _ h0 hl
  rw [rowsIn, rowsOf, filter_rows] at this
  refine LiveReturns.records hS.legal (fun x hx q => ?_) this
  rw [hw x hx q]
  simp [Rec.row]

theorem liveTimePass_row {x : Rec} {o : Obs} (h : o.legal) (hv : x.value = o.value) (q0 q : Query) :
    liveTimePass q0 q x.row = (!q0.bounds.any || inBounds q.bounds o) := by
  unfold liveTimePass
  rw [passes_filterTime]
  simp only [Rec.row, hv, timeMatch_value h]
  simp

theorem liveFilter_type (a : Ask) (nm : Bytes) (n : Nat) (f : KV → Verdict) (q : Query) :
    liveFilter (a.query .rrset nm) n (.filterRrtype, f) q = filterRrtype q.rrtype := by
  simp [liveFilter, Ask.query]

theorem live_typeBailiwick_good {a : Ask} {nm : Bytes} {n : Nat} {T : Table} (h : ∀ kv ∈ T, ∃ r : RRset, r.legal ∧ kv.1 = r.key) :
    ∀ f ∈ rrtypeIf (a.query .rrset nm) ++ bailiwickIf (a.query .rrset nm), ∀ q,
      Good (liveFilter (a.query .rrset nm) n f q) (passes (liveFilter (a.query .rrset nm) n f q)) T := by
  intro f hf q
  rw [Ask.rrtypeIf_eq, Ask.bailiwickIf_eq, List.mem_append] at hf
  rcases hf with hf | hf
  · cases hty : a.ty with
    | none => simp [hty] at hf
    | some t =>
      simp only [hty, List.mem_singleton] at hf
      subst hf
      rw [liveFilter_type]
      exact good_rrtype _ fun kv hkv => .inl (h kv hkv)
  · cases hbw : a.bw with
    | none => simp [hbw] at hf
    | some bw =>
      simp only [hbw, List.mem_singleton] at hf
      subst hf
      exact good_bailiwick _ h

theorem live_bailiwick_passes {r : RRset} (hr : r.legal) (q : Query) (v : Bytes) :
    passes (filterBailiwick (q.bailiwick.getD [])) (r.key, v) = (q.bailiwick == some (wire r.bailiwick.reverse)) := by
  rw [show filterBailiwick (q.bailiwick.getD []) = fun kv => verdictOf (bailiwickMatch (q.bailiwick.getD []) kv.1) from rfl,
    passes_verdictOf]
  simp only [bailiwickMatch_rrset hr, Out.ok.injEq, Bool.decide_eq_true]
  cases q.bailiwick with
  | none => simp [wire]
  | some b =>
    rw [Bool.eq_iff_iff]
    simp only [Option.getD_some, beq_iff_eq, Option.some.injEq]
    exact eq_comm

theorem live_typeBailiwick_passes {a : Ask} {nm : Bytes} {n : Nat} {r : RRset} (hr : r.legal) (q : Query) (v : Bytes) :
    ((rrtypeIf (a.query .rrset nm) ++ bailiwickIf (a.query .rrset nm)).all fun f =>
      passes (liveFilter (a.query .rrset nm) n f q) (r.key, v)) =
      ((a.ty.isNone || q.rrtype == r.rrtype) && (a.bw.isNone || q.bailiwick == some (wire r.bailiwick.reverse))) := by
  rw [List.all_append, Ask.rrtypeIf_eq, Ask.bailiwickIf_eq]
  congr 1
  · cases a.ty with
    | none => rfl
    | some t => simp [liveFilter_type, passes_rrtype_rrset hr]
  · cases a.bw with
    | none => rfl
    | some bw =>
      simp only [List.all_cons, List.all_nil, Bool.and_true, Option.isNone_some, Bool.false_or]
      exact live_bailiwick_passes hr q v

namespace Props

/-- C67: an iterator for the RRsets of one name, over any table of records: each call passes over the RRsets of the name that do
not meet the criteria as they are at that call, and returns the first that does.  Type and bailiwick are those of the opening
if there was a type then, and otherwise the bailiwick is the present one.  This is for all sequences of setter calls and
calls of `dnstable_iter_next`, of which no setter takes away the last time limit of a query opened with one. -/
theorem C67_exact_rrset (A : Arith) (T : Libs) {Ts : List Rec} (hS : Stored Ts) (sf : View → Bytes → Bool) {n : Name}
    (hn : legalName n) (hp : PlainName n) {a : Ask} (ha : a.legal) (ho : a.offset = 0) :
    ∃ p, initKind (a.query .rrset (wire n)) = .ok p ∧ ∀ (os : List LiveOp) (w : World),
      let q0 := a.query .rrset (wire n)
      let L := liveAssemble q0 (plainSources (curM (rowsOf Ts) sf)) p
      let cs := liveRun A T q0 L os q0 (L.at q0).start w
      (a.lim.active = true → ∀ c ∈ cs, c.query.lim.active = true) →
      LiveReturns a.lim.active (fun x => some x.entry) (liveRrset (· == n) a.ty.isSome a) Ts cs := by
  have hL : isLeftWildcard (wire n) = none := isLeftWildcard_plain hn.1 hp.1
  have hR : isRightWildcard (wire n) = none := isRightWildcard_plain hn.1 hp.2.1 hp.2.2
  have hinit : initKind (a.query .rrset (wire n)) = initRrsetExact (a.query .rrset (wire n)) := by
    simp only [initKind, Ask.query, initRrset, hL, hR]
  have htime : ∀ {p : Bytes} {x : Rec}, inView (.pfx (0 :: p)) x.key = true → timed x = true := by
    intro p x h
    obtain ⟨r, o, rfl⟩ := pfx_rrset h; rfl
  have hnot : ∀ {b : Bool} {q : Query} {x : Rec}, (∀ r o, x ≠ .rrset r o) → liveRrset (· == n) b a q x = false := by
    intro b q x hx
    cases x with
    | rrset r o => exact absurd rfl (hx r o)
    | _ => rfl
  rw [hinit, initRrsetExact]
  have hname : (a.query .rrset (wire n)).name = wire n := rfl
  rw [hname, reverseName_wire hn.1]
  simp only [Out.ok_bind]
  rw [if_neg (by simp only [maxLenName]; have := hn.2; omega)]
  cases hty : a.ty with
  | some t =>
    have hd : (a.query .rrset (wire n)).doRrtype = true := by simp [Ask.query, hty]
    have hrt : (a.query .rrset (wire n)).rrtype = t := by simp [Ask.query, hty]
    obtain ⟨ht1, ht2⟩ := ha.1 t hty
    rw [if_pos hd, hrt, addRrtype_leb _ ht1 ht2]
    simp only [Out.ok_bind]
    refine ⟨_, rfl, fun os w hl => ?_⟩
    refine live_direct hS sf (q0 := a.query .rrset (wire n))
      (p := { view := .pfx (0 :: wire n.reverse ++ leb t ++ (a.query .rrset (wire n)).bailiwick.getD []) }) (want := liveRrset (· == n) true a) (by rfl) ho (by simp) (fun x _ h => htime h) ?_ os w hl
    intro x hx q
    have hxl := hS.legal x hx
    rw [List.cons_append, List.cons_append]
    refine eq_of_not_rrset hnot ?_
    rintro r o rfl
    rw [liveTimePass_row hxl.2 rfl]
    simp only [List.all_nil, Bool.true_and, liveRrset, if_true]
    congr 1
    rw [Bool.eq_iff_iff, inView_pfx, List.append_assoc]
    rw [show (Rec.rrset r o).key = r.key from rfl, rrset_pfx hn.1 hxl.1, leb_append_prefix]
    rw [hty]
    simp only [Bool.and_eq_true, beq_iff_eq, Option.all_some]
    refine and_congr Iff.rfl (and_congr Iff.rfl ?_)
    simp only [Ask.query]
    cases hbw : a.bw with
    | none => simp
    | some bw =>
      simp only [Option.all_some, beq_iff_eq, Option.map_some, Option.getD_some]
      have := wire_append_prefix (s := []) (t := rdataArray r.rdatas)
        (legalLabels_reverse.mpr (ha.2 bw hbw).1) (legalLabels_reverse.mpr hxl.1.2.2.1.1)
      rw [List.append_nil] at this
      rw [this]
      simp
  | none =>
    have hd : (a.query .rrset (wire n)).doRrtype = false := by simp [Ask.query, hty]
    rw [if_neg (by rw [hd]; simp)]
    refine ⟨_, rfl, fun os w hl => ?_⟩
    refine live_direct hS sf (q0 := a.query .rrset (wire n))
      (p := { onSource := bailiwickIf (a.query .rrset (wire n)), view := .pfx (0 :: wire n.reverse) })
      (want := liveRrset (· == n) false a) (by rfl) ho ?_ (fun x _ h => htime h) ?_ os w hl
    · intro f hf q
      refine live_typeBailiwick_good (fun kv hkv => ?_) f (List.mem_append_right _ hf) q
      obtain ⟨x, hx, rfl, hv⟩ := rowsIn_rec hkv
      obtain ⟨r, o, rfl⟩ := pfx_rrset hv
      exact ⟨r, (hS.legal _ hx).1, rfl⟩
    · intro x hx q
      have hxl := hS.legal x hx
      refine eq_of_not_rrset hnot ?_
      rintro r o rfl
      have hall := live_typeBailiwick_passes (a := a) (nm := wire n) (n := (View.pfx (0 :: wire n.reverse)).lo.length) hxl.1 q
        (Rec.rrset r o).value
      rw [Ask.rrtypeIf_eq, hty, List.nil_append] at hall
      have h1 : inView (.pfx (0 :: wire n.reverse)) r.key = (r.owner == n) := by
        rw [Bool.eq_iff_iff, inView_pfx]
        have := rrset_pfx hn.1 hxl.1 []
        rw [List.append_nil] at this
        rw [this]; simp
      rw [liveTimePass_row hxl.2 rfl, ← Bool.and_assoc, show (Rec.rrset r o).key = r.key from rfl, h1,
        show (Rec.rrset r o).row = (r.key, (Rec.rrset r o).value) from rfl, hall]
      simp [liveRrset, hty, Ask.query]

/-- C67: the same for an iterator for the RRsets below a name (`*.dom` and `+.dom`): each call passes over those that do not have
the present type, bailiwick and times, as far as the query had such criteria when the iterator was opened, and returns the first
that does. -/
theorem C67_left_rrset (A : Arith) (T : Libs) {Ts : List Rec} (hS : Stored Ts) (sf : View → Bytes → Bool) {c : UInt8}
    (hc : c = 42 ∨ c = 43) {dom : Name} (hn : legalName ([c] :: dom)) {a : Ask} (ho : a.offset = 0) :
    ∃ p, initKind (a.query .rrset (wire ([c] :: dom))) = .ok p ∧ ∀ (os : List LiveOp) (w : World),
      let q0 := a.query .rrset (wire ([c] :: dom))
      let L := liveAssemble q0 (plainSources (curM (rowsOf Ts) sf)) p
      let cs := liveRun A T q0 L os q0 (L.at q0).start w
      (a.lim.active = true → ∀ c ∈ cs, c.query.lim.active = true) →
      LiveReturns a.lim.active (fun x => some x.entry) (liveRrset (leftWild c dom) false a) Ts cs := by
  have hd : legalName dom := by
    refine ⟨(legalLabels_cons.1 hn.1).2, ?_⟩
    have := hn.2
    rw [wire_cons] at this
    simp only [List.length_cons, List.length_append] at this
    omega
  have hdr := legalLabels_reverse.mpr hd.1
  have hinit : initKind (a.query .rrset (wire ([c] :: dom))) =
      .ok { onSource := singleLabelIf (c == 43) (0 :: flat dom.reverse) ++
              (rrtypeIf (a.query .rrset (wire ([c] :: dom))) ++ bailiwickIf (a.query .rrset (wire ([c] :: dom)))),
            view := .pfx (0 :: flat dom.reverse) } := by
    simp only [initKind, Ask.query, initRrset, isLeftWildcard_wild dom hc, initRrsetLeft,
      leftWildcardKey_wire 0 hd, Out.ok_bind, List.append_assoc]
  have hkeys : ∀ kv ∈ rowsIn (rowsOf Ts) (.pfx (0 :: flat dom.reverse)),
      ∃ r : RRset, r.legal ∧ kv.1 = r.key := by
    intro kv hkv
    obtain ⟨x, hx, rfl, hv⟩ := rowsIn_rec hkv
    obtain ⟨r, o, rfl⟩ := pfx_rrset hv
    exact ⟨r, (hS.legal _ hx).1, rfl⟩
  have hpfx : ∀ {r : RRset}, r.legal → (0 :: flat dom.reverse <+: r.key ↔ dom <:+ r.owner) := by
    intro r hr
    rw [RRset.key, List.cons_prefix_cons, List.append_assoc, List.append_assoc,
      flat_prefix_iff hdr (legalLabels_reverse.mpr hr.1.1), List.reverse_prefix]
    simp
  have hnk : ∀ {r : RRset}, r.legal → dom <:+ r.owner → NameKey 0 dom.reverse r.key r.owner.reverse := by
    intro r hr hs
    exact ⟨legalLabels_reverse.mpr hr.1.1, List.reverse_prefix.2 hs, _, by rw [RRset.key, List.append_assoc, List.append_assoc]⟩
  have hsingle : ∀ (n : Nat) (q : Query), ∀ f ∈ singleLabelIf (c == 43) (0 :: flat dom.reverse),
      liveFilter (a.query .rrset (wire ([c] :: dom))) n f q = f.2 := by
    intro n q f hf
    unfold singleLabelIf filtIf at hf
    split at hf
    · simp only [List.mem_singleton] at hf; subst hf; rfl
    · cases hf
  refine ⟨_, hinit, fun os w hl => ?_⟩
  refine live_direct hS sf (q0 := a.query .rrset (wire ([c] :: dom)))
    (p := { onSource := singleLabelIf (c == 43) (0 :: flat dom.reverse) ++
              (rrtypeIf (a.query .rrset (wire ([c] :: dom))) ++ bailiwickIf (a.query .rrset (wire ([c] :: dom)))),
            view := .pfx (0 :: flat dom.reverse) })
    (want := liveRrset (leftWild c dom) false a) rfl ho ?_ (fun x _ h => by obtain ⟨r, o, rfl⟩ := pfx_rrset h; rfl) ?_ os w hl
  · intro f hf q
    rcases List.mem_append.1 hf with hf | hf
    · rw [hsingle _ q f hf]
      rw [singleLabelIf, filtIf] at hf
      split at hf
      · rw [List.mem_singleton] at hf
        subst hf
        apply good_singleLabel (by decide)
        intro kv hkv
        obtain ⟨x, hx, rfl, hv⟩ := rowsIn_rec hkv
        obtain ⟨r, o, rfl⟩ := pfx_rrset hv
        have hr := (hS.legal _ hx).1
        exact ⟨_, hnk hr ((hpfx hr).1 ((inView_pfx _ _).1 hv))⟩
      · simp at hf
    · exact live_typeBailiwick_good hkeys f hf q
  · intro x hx q
    have hxl := hS.legal x hx
    refine eq_of_not_rrset ?_ ?_
    · intro h
      cases x with
      | rrset r o => exact absurd rfl (h r o)
      | _ => rfl
    rintro r o rfl
    have hr := hxl.1
    rw [liveTimePass_row hxl.2 rfl, ← Bool.and_assoc, List.all_append, ← Bool.and_assoc]
    rw [Rec.row, show (Rec.rrset r o).key = r.key from rfl, live_typeBailiwick_passes hr]
    have hs : (singleLabelIf (c == 43) (0 :: flat dom.reverse)).all (fun f =>
          passes (liveFilter (a.query .rrset (wire ([c] :: dom))) (View.pfx (0 :: flat dom.reverse)).lo.length f q)
            (r.key, (Rec.rrset r o).value)) =
        (singleLabelIf (c == 43) (0 :: flat dom.reverse)).all (fun f => passes f.2 (r.key, (Rec.rrset r o).value)) := by
      rw [Bool.eq_iff_iff, List.all_eq_true, List.all_eq_true]
      refine forall_congr' fun f => forall_congr' fun hf => ?_
      rw [hsingle _ q f hf]
    rw [hs]
    simp only [liveRrset, Bool.false_eq_true, if_false]
    congr 1
    congr 1
    rw [Bool.eq_iff_iff, Bool.and_eq_true, inView_pfx, hpfx hr]
    unfold leftWild singleLabelIf filtIf
    rcases hc with rfl | rfl
    · simp
    · simp only [if_true, Bool.and_eq_true, beq_iff_eq, beq_self_eq_true, List.isSuffixOf_iff_suffix,
        List.all_cons, List.all_nil, Bool.and_true]
      constructor
      · rintro ⟨h1, h2⟩
        refine ⟨h2, (singleLabel_passes (by decide) (hnk hr h2)).2 ?_⟩
        obtain ⟨s, hs⟩ := h2
        rw [← hs] at h1
        simp only [List.length_append] at h1
        have : s.length = 1 := by omega
        obtain ⟨l, rfl⟩ := List.length_eq_one_iff.1 this
        exact ⟨l, by rw [← hs]; simp⟩
      · rintro ⟨h1, h2⟩
        refine ⟨?_, h1⟩
        obtain ⟨l, hl⟩ := (singleLabel_passes (by decide) (hnk hr h1)).1 h2
        have := congrArg List.length hl
        simpa using this

/-- `exSeen` with the plan of the query. -/
def exSeenOf (q : Query) (os : List LiveOp) : List (Option (Nat × Nat)) :=
  match initKind q with
  | .ok p => exSeen q p (rowsOf exRrsets) os
  | _ => []

/-- Hypotheses and effect on six RRsets.  Of an iterator for `com`, opened with an upper bound on the last-seen time of 20, the first
call returns the first RRset; with the bound lowered to 8 the second call returns nothing.  Of an iterator for `*.com`, opened
with the bailiwick `com`, the type is not restricted by a call of `dnstable_query_set_rrtype`, and the bailiwick is the present one. -/
example : legalName exCom ∧ PlainName exCom ∧ legalName ([42] :: exCom) ∧
    (let q := Ask.query { times := { lastBefore := some 20 } } .rrset (wire exCom)
     exSeenOf q [.next, .set (.filterParam 2 (some 8) 8), .next] = [some (1, 9), none] ∧
     exSeenOf q [.next, .next] = [some (1, 9), some (2, 9)]) ∧
    (let q := Ask.query { bw := some exCom } .rrset (wire ([42] :: exCom))
     exSeenOf q [.next, .set (.rrtype (some (lit "MX"))), .next] = [some (2, 9), some (1, 9)] ∧
     exSeenOf q [.next, .set (.bailiwick (some (lit "B."))), .next] = [some (2, 9), none]) := by
  refine ⟨by decide, ⟨?_, ?_, ?_⟩, by decide, ⟨by decide +kernel, by decide +kernel⟩, by decide +kernel, by decide +kernel⟩
  · rintro ⟨c, m, h, -⟩; simp [exCom] at h
  · rintro ⟨c, m, h, -⟩; cases m <;> simp [exCom] at h
  · rintro ⟨p, c, m, h, hc⟩
    cases m with
    | nil =>
      simp only [exCom, List.nil_append, List.cons.injEq, and_true] at h
      have := congrArg List.getLast? h
      simp at this
      rcases hc with rfl | rfl <;> simp at this
    | cons _ _ => simp [exCom] at h

end Props
end Verif
