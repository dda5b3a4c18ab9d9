import Verif.Lemmas.Wild

/-!
# C18, C19, C26: RRset queries
-/

namespace Verif.Props
open Verif Verif.Spec

/-- C26: the type filter accepts the key of a legal RRset or record exactly when the decoded entry
reports the requested type. -/
theorem C26_rrtype (x : Rec) (h : x.legal) (hk : (∃ r o, x = .rrset r o) ∨ ∃ r o, x = .rr r o) (want : Nat) :
    ∃ e, entryDecode x.key x.value = .ok e ∧
      filterRrtype want x.row = if e.getRrtype = .ok want then .pass else .drop := by
  refine ⟨_, Rec.decode h, ?_⟩
  rcases hk with ⟨r, o, rfl⟩ | ⟨r, o, rfl⟩
  · have h1 : r.rrtype % 65536 = r.rrtype := Nat.mod_eq_of_lt h.1.2.1
    simp only [filterRrtype, Rec.row, Rec.key, rrtypeMatch_rrset h.1, Entry.getRrtype, Rec.entry, h1]
    by_cases he : r.rrtype = want <;> simp [verdictOf_ok, he, tRRSET]
  · have h1 : r.rrtype % 65536 = r.rrtype := Nat.mod_eq_of_lt h.1.2.1
    simp only [filterRrtype, Rec.row, Rec.key, rrtypeMatch_rr h.1, Entry.getRrtype, Rec.entry, h1]
    by_cases he : r.rrtype = want <;> simp [verdictOf_ok, he, tRDATA]

/-- C26: the bailiwick filter accepts the key of a legal RRset exactly when the decoded entry reports
the requested bailiwick. -/
theorem C26_bailiwick (r : RRset) (o : Obs) (hr : r.legal) (ho : o.legal) (bw : Name) (hb : legalName bw) :
    ∃ e rev, entryDecode r.key o.value = .ok e ∧ reverseName (wire bw) = .ok rev ∧
      filterBailiwick rev (r.key, o.value) =
        if e.getBailiwick = .ok (wire bw) then .pass else .drop := by
  refine ⟨_, _, Rec.decode (x := .rrset r o) ⟨hr, ho⟩, reverseName_wire hb.1, ?_⟩
  simp only [filterBailiwick, bailiwickMatch_rrset hr, Entry.getBailiwick, Rec.entry]
  rw [wire_eq_iff hr.2.2.1.1 hb.1]
  by_cases he : bw = r.bailiwick
  · simp [verdictOf_ok, he, tRRSET]
  · have : ¬ wire r.bailiwick = wire bw := fun h => he (wire_inj hr.2.2.1.1 hb.1 h).symm
    simp [verdictOf_ok, he, tRRSET, this]

/-- The name-bearing-type filter of rdata name queries accepts the key of a legal record exactly when
the decoded entry reports one of the documented types. -/
theorem C26_rdata_name (r : RR) (o : Obs) (hr : r.legal) (ho : o.legal) :
    ∃ e t, entryDecode r.key o.value = .ok e ∧ e.getRrtype = .ok t ∧
      filterRrtypeRdataName (r.key, o.value) =
        if t ∈ [2, 5, 6, 12, 15, 17, 30, 33, 39, 47, 64, 65] then .pass else .drop := by
  refine ⟨_, r.rrtype, Rec.decode (x := .rr r o) ⟨hr, ho⟩, ?_, ?_⟩
  · have h1 : r.rrtype % 65536 = r.rrtype := Nat.mod_eq_of_lt hr.2.1
    simp [Entry.getRrtype, Rec.entry, h1, tRDATA]
  · simp only [filterRrtypeRdataName, rdataNameMatch_rr hr]
    have e : rdataNameTypes.contains r.rrtype =
        decide (r.rrtype ∈ [2, 5, 6, 12, 15, 17, 30, 33, 39, 47, 64, 65]) := by
      rw [Bool.eq_iff_iff]
      simp only [rdataNameTypes, standaloneTypes, List.contains_iff_mem, List.mem_cons, List.mem_append, decide_eq_true_eq]
      simp only [List.not_mem_nil, or_false]
      omega
    rw [e]
    by_cases h : r.rrtype ∈ [2, 5, 6, 12, 15, 17, 30, 33, 39, 47, 64, 65]
    · rw [decide_eq_true h, if_pos h]; rfl
    · rw [decide_eq_false h, if_neg h]; rfl

/-- `www.com` (labels), used in the examples. -/
def exWww : Name := [[119, 119, 119], [99, 111, 109]]
/-- `com`. -/
def exCom : Name := [[99, 111, 109]]

/-- An example table with RRsets of three owners. -/
def exRrsets : List Rec :=
  [.rrset ⟨[], 2, [], [[1, 97, 0]]⟩ ⟨5, 9, 1⟩,
   .rrset ⟨exCom, 1, [], [[1, 2, 3, 4]]⟩ ⟨5, 9, 1⟩,
   .rrset ⟨exCom, 2, exCom, [[1, 97, 0]]⟩ ⟨5, 9, 1⟩,
   .rrset ⟨[120] :: exCom, 1, exCom, [[9, 9, 9, 8]]⟩ ⟨6, 9, 3⟩,
   .rrset ⟨[97] :: exWww, 1, exCom, [[9, 9, 9, 9]]⟩ ⟨6, 9, 3⟩,
   .rrset ⟨[98] :: exWww, 1, exCom, [[9, 9, 9, 8]]⟩ ⟨6, 9, 3⟩]

theorem exRrsets_stored : Stored exRrsets := by
  refine ⟨?_, by decide +kernel⟩
  intro x hx
  simp only [exRrsets, List.mem_cons, List.not_mem_nil, or_false] at hx
  rcases hx with rfl | rfl | rfl | rfl | rfl | rfl <;>
    (simp only [Rec.legal]; decide +kernel)

example : (exRrsets.map fun x => filterRrtype 2 x.row) = [.pass, .drop, .pass, .drop, .drop, .drop] := by
  decide +kernel

/-- An exact query for RRsets over any sources that offer the records. -/
theorem rrset_exact_from {Ts : List Rec} (hS : Stored Ts) {S : Sources} {n : Name} {a : Ask}
    (hO : Offers Ts (a.query .rrset (wire n)) S) (hn : legalName n) (hp : PlainName n) (ha : a.legal) :
    DeliversFrom S (a.query .rrset (wire n)) (Ts.filter (wantRrset (· == n) a.ty a.bw a.times)) := by
  have hL : isLeftWildcard (wire n) = none := isLeftWildcard_plain hn.1 hp.1
  have hR : isRightWildcard (wire n) = none := isRightWildcard_plain hn.1 hp.2.1 hp.2.2
  have hinit : initKind (a.query .rrset (wire n)) = initRrsetExact (a.query .rrset (wire n)) := by
    simp only [initKind, Ask.query, initRrset, hL, hR]
  have htime : ∀ {p : Bytes} {x : Rec}, inView (.pfx (0 :: p)) x.key = true → timed x = true := by
    intro p x h
    obtain ⟨r, o, rfl⟩ := pfx_rrset h; rfl
  have hnot : ∀ {x : Rec}, (∀ r o, x ≠ .rrset r o) → wantRrset (· == n) a.ty a.bw a.times x = false := by
    intro x hx
    cases x with
    | rrset r o => exact absurd rfl (hx r o)
    | _ => rfl
  unfold DeliversFrom
  rw [hinit, initRrsetExact]
  have hname : (a.query .rrset (wire n)).name = wire n := rfl
  rw [hname, reverseName_wire hn.1]
  simp only [Out.ok_bind]
  rw [if_neg (by simp only [maxLenName]; have := hn.2; omega)]
  cases hty : a.ty with
  | some t =>
    have hd : (a.query .rrset (wire n)).doRrtype = true := by simp [Ask.query, hty]
    have hrt : (a.query .rrset (wire n)).rrtype = t := by simp [Ask.query, hty]
    obtain ⟨ht1, ht2⟩ := ha.1 t hty
    rw [if_pos hd, hrt, addRrtype_leb _ ht1 ht2]
    simp only [Out.ok_bind]
    refine ⟨_, rfl, fun ls w hw hl => ?_⟩
    refine (offered_direct hS hO (want := wantRrset (· == n) (some t) a.bw a.times) (by rfl) (by simp) (by exact trivial)
      (fun x _ h => htime h) ?_ ls hl hw).1
    intro x hx
    have hxl := hS.legal x hx
    rw [List.cons_append, List.cons_append]
    refine eq_of_not_rrset (hty ▸ hnot) ?_
    rintro r o rfl
    rw [timePass_row hxl.2 rfl]
    simp only [List.all_nil, Bool.true_and, wantRrset]
    congr 1
    rw [Bool.eq_iff_iff, inView_pfx, List.append_assoc]
    rw [show (Rec.rrset r o).key = r.key from rfl, rrset_pfx hn.1 hxl.1, leb_append_prefix]
    simp only [Bool.and_eq_true, beq_iff_eq, Option.all_some, and_assoc]
    refine and_congr Iff.rfl (and_congr Iff.rfl ?_)
    simp only [Ask.query]
    cases hbw : a.bw with
    | none => simp
    | some bw =>
      simp only [Option.all_some, beq_iff_eq, Option.map_some, Option.getD_some]
      have := wire_append_prefix (s := []) (t := rdataArray r.rdatas)
        (legalLabels_reverse.mpr (ha.2 bw hbw).1) (legalLabels_reverse.mpr hxl.1.2.2.1.1)
      rw [List.append_nil] at this
      rw [this]
      simp
  | none =>
    have hd : (a.query .rrset (wire n)).doRrtype = false := by simp [Ask.query, hty]
    rw [if_neg (by rw [hd]; simp)]
    refine ⟨_, rfl, fun ls w hw hl => ?_⟩
    refine (offered_direct hS hO (want := wantRrset (· == n) none a.bw a.times) rfl (keyOnly_bailiwickIf _) ?_
      (fun x _ h => htime h) ?_ ls hl hw).1
    · apply GoodSeq.of_all
      intro f hf
      rw [Ask.bailiwickIf_eq] at hf
      cases hbw : a.bw with
      | none => simp [hbw] at hf
      | some bw =>
        simp only [hbw, List.mem_singleton] at hf
        subst hf
        apply good_bailiwick
        intro kv hkv
        obtain ⟨x, hx, rfl, hv⟩ := rowsIn_rec hkv
        obtain ⟨r, o, rfl⟩ := pfx_rrset hv
        exact ⟨r, (hS.legal _ hx).1, rfl⟩
    · intro x hx
      have hxl := hS.legal x hx
      refine eq_of_not_rrset (hty ▸ hnot) ?_
      rintro r o rfl
      rw [timePass_row hxl.2 rfl, ← Bool.and_assoc]
      simp only [wantRrset]
      congr 1
      have h1 : inView (.pfx (0 :: wire n.reverse)) r.key = (r.owner == n) := by
        rw [Bool.eq_iff_iff, inView_pfx]
        have := rrset_pfx hn.1 hxl.1 []
        rw [List.append_nil] at this
        rw [this]; simp
      rw [show (Rec.rrset r o).key = r.key from rfl, h1, Ask.bailiwickIf_eq]
      cases hbw : a.bw with
      | none => simp
      | some bw =>
        simp only [Option.all_none, Bool.and_true, Option.all_some, List.all_cons, List.all_nil]
        rw [Rec.row, show (Rec.rrset r o).key = r.key from rfl,
          passes_bailiwick_rrset hxl.1 (ha.2 bw hbw).1]

/-- C18: a query for an owner name, optionally restricted to a type, a bailiwick and times, delivers
exactly the RRsets with that owner, type, bailiwick and times, in key order, each once.  The name must
not be (read as) a wildcard: see `C18_wildcard_look_alike_counterexample`. -/
theorem C18_exact_rrset {Ts : List Rec} (hS : Stored Ts) {n : Name} (hn : legalName n) (hp : PlainName n)
    {a : Ask} (ha : a.legal) :
    Delivers Ts (a.query .rrset (wire n)) (Ts.filter (wantRrset (· == n) a.ty a.bw a.times)) :=
  fun sf => rrset_exact_from hS (offers_plain hS _ sf) hn hp ha

example : Delivers exRrsets (Ask.query { ty := some 2, times := { lastAfter := some 8 } } .rrset (wire exCom))
    [.rrset ⟨exCom, 2, exCom, [[1, 97, 0]]⟩ ⟨5, 9, 1⟩] := by
  have h := C18_exact_rrset exRrsets_stored (n := exCom) (by decide) ⟨?_, ?_, ?_⟩
    (a := { ty := some 2, times := { lastAfter := some 8 } }) ⟨by simp, by simp⟩
  · have e : exRrsets.filter (wantRrset (· == exCom) (some 2) none { lastAfter := some 8 }) =
        [.rrset ⟨exCom, 2, exCom, [[1, 97, 0]]⟩ ⟨5, 9, 1⟩] := by decide +kernel
    rwa [e] at h
  · rintro ⟨c, m, h, -⟩; simp [exCom] at h
  · rintro ⟨c, m, h, -⟩; cases m <;> simp [exCom] at h
  · rintro ⟨p, c, m, h, hc⟩
    cases m with
    | nil =>
      simp only [exCom, List.nil_append, List.cons.injEq, and_true] at h
      have := congrArg List.getLast? h
      simp at this
      rcases hc with rfl | rfl <;> simp at this
    | cons _ _ => simp [exCom] at h

/-- C18 fails for an owner whose last label ends with the bytes 1, `*`: `is_right_wildcard`
(`/repo/dnstable/query.c:1481-1493`) looks at the last bytes only, and takes it for a wildcard. -/
theorem C18_wildcard_look_alike_counterexample :
    ∃ (Ts : List Rec) (n : Name), Stored Ts ∧ legalName n ∧ ¬ startsWild n ∧ ¬ endsWild n ∧
      (Ts.filter (wantRrset (· == n) none none {})).length = 1 ∧
      ¬ Delivers Ts (Ask.query {} .rrset (wire n)) (Ts.filter (wantRrset (· == n) none none {})) := by
  refine ⟨[.rrset ⟨[[1, 42]], 1, [], [[1, 2, 3, 4]]⟩ ⟨5, 9, 1⟩], [[1, 42]], ⟨?_, by decide +kernel⟩, by decide,
    ?_, ?_, by decide +kernel, ?_⟩
  · intro x hx
    rw [List.mem_singleton] at hx; subst hx
    simp only [Rec.legal]; decide +kernel
  · rintro ⟨c, m, h, -⟩; simp at h
  · rintro ⟨c, m, h, -⟩; cases m <;> simp at h
  · intro h
    have h1 := h.first (p := _) rfl rfl
    revert h1
    decide +kernel

/-- A query for `*.dom` over any sources that offer the records. -/
theorem rrset_left_from {Ts : List Rec} (hS : Stored Ts) {S : Sources} {c : UInt8} (hc : c = 42 ∨ c = 43) {dom : Name}
    {a : Ask} (hO : Offers Ts (a.query .rrset (wire ([c] :: dom))) S) (hn : legalName ([c] :: dom)) (ha : a.legal) :
    DeliversFrom S (a.query .rrset (wire ([c] :: dom)))
      (Ts.filter (wantRrset (leftWild c dom) a.ty a.bw a.times)) := by
  have hd : legalName dom := by
    refine ⟨(legalLabels_cons.1 hn.1).2, ?_⟩
    have := hn.2
    rw [wire_cons] at this
    simp only [List.length_cons, List.length_append] at this
    omega
  have hdr := legalLabels_reverse.mpr hd.1
  have hinit : initKind (a.query .rrset (wire ([c] :: dom))) =
      .ok { onSource := singleLabelIf (c == 43) (0 :: flat dom.reverse) ++
              (rrtypeIf (a.query .rrset (wire ([c] :: dom))) ++ bailiwickIf (a.query .rrset (wire ([c] :: dom)))),
            view := .pfx (0 :: flat dom.reverse) } := by
    simp only [initKind, Ask.query, initRrset, isLeftWildcard_wild dom hc, initRrsetLeft,
      leftWildcardKey_wire 0 hd, Out.ok_bind, List.append_assoc]
  have hkeys : ∀ kv ∈ rowsIn (rowsOf Ts) (.pfx (0 :: flat dom.reverse)),
      ∃ r : RRset, r.legal ∧ kv.1 = r.key := by
    intro kv hkv
    obtain ⟨x, hx, rfl, hv⟩ := rowsIn_rec hkv
    obtain ⟨r, o, rfl⟩ := pfx_rrset hv
    exact ⟨r, (hS.legal _ hx).1, rfl⟩
  have hpfx : ∀ {r : RRset}, r.legal → (0 :: flat dom.reverse <+: r.key ↔ dom <:+ r.owner) := by
    intro r hr
    rw [RRset.key, List.cons_prefix_cons, List.append_assoc, List.append_assoc,
      flat_prefix_iff hdr (legalLabels_reverse.mpr hr.1.1), List.reverse_prefix]
    simp
  have hnk : ∀ {r : RRset}, r.legal → dom <:+ r.owner → NameKey 0 dom.reverse r.key r.owner.reverse := by
    intro r hr hs
    exact ⟨legalLabels_reverse.mpr hr.1.1, List.reverse_prefix.2 hs, _, by rw [RRset.key, List.append_assoc, List.append_assoc]⟩
  refine ⟨_, hinit, fun ls w hw hl => ?_⟩
  refine (offered_direct hS hO (want := wantRrset (leftWild c dom) a.ty a.bw a.times) (by rfl)
    (keyOnly_append (keyOnly_singleLabelIf _ _) (keyOnly_append (keyOnly_rrtypeIf _) (keyOnly_bailiwickIf _))) ?_
    (fun x _ h => by obtain ⟨r, o, rfl⟩ := pfx_rrset h; rfl) ?_ ls hl hw).1
  · apply GoodSeq.of_all
    intro f hf
    rcases List.mem_append.1 hf with hf | hf
    · rw [singleLabelIf, filtIf] at hf
      split at hf
      · rw [List.mem_singleton] at hf
        subst hf
        apply good_singleLabel (by decide)
        intro kv hkv
        obtain ⟨x, hx, rfl, hv⟩ := rowsIn_rec hkv
        obtain ⟨r, o, rfl⟩ := pfx_rrset hv
        have hr := (hS.legal _ hx).1
        exact ⟨_, hnk hr ((hpfx hr).1 ((inView_pfx _ _).1 hv))⟩
      · simp at hf
    · exact typeBailiwick_good hkeys f hf
  · intro x hx
    have hxl := hS.legal x hx
    refine eq_of_not_rrset ?_ ?_
    · intro h
      cases x with
      | rrset r o => exact absurd rfl (h r o)
      | _ => rfl
    rintro r o rfl
    have hr := hxl.1
    rw [timePass_row hxl.2 rfl, ← Bool.and_assoc, List.all_append, ← Bool.and_assoc]
    rw [Rec.row, show (Rec.rrset r o).key = r.key from rfl, typeBailiwick_passes ha hr]
    simp only [wantRrset]
    congr 1
    rw [Bool.and_assoc]
    congr 1
    rw [Bool.eq_iff_iff, Bool.and_eq_true, inView_pfx, hpfx hr]
    unfold leftWild singleLabelIf filtIf
    rcases hc with rfl | rfl
    · simp
    · simp only [if_true, Bool.and_eq_true, beq_iff_eq, beq_self_eq_true, List.isSuffixOf_iff_suffix,
        List.all_cons, List.all_nil, Bool.and_true]
      constructor
      · rintro ⟨h1, h2⟩
        refine ⟨h2, (singleLabel_passes (by decide) (hnk hr h2)).2 ?_⟩
        obtain ⟨s, hs⟩ := h2
        rw [← hs] at h1
        simp only [List.length_append] at h1
        have : s.length = 1 := by omega
        obtain ⟨l, rfl⟩ := List.length_eq_one_iff.1 this
        exact ⟨l, by rw [← hs]; simp⟩
      · rintro ⟨h1, h2⟩
        refine ⟨?_, h1⟩
        obtain ⟨l, hl⟩ := (singleLabel_passes (by decide) (hnk hr h1)).1 h2
        have := congrArg List.length hl
        simpa using this

/-- C19: a query for `*.dom` (or `+.dom`), optionally restricted to a type, a bailiwick and times,
delivers exactly the RRsets whose owner is `dom` or lies below it (has exactly one label in front of
it), in key order, each once. -/
theorem C19_left_wildcard {Ts : List Rec} (hS : Stored Ts) {c : UInt8} (hc : c = 42 ∨ c = 43) {dom : Name}
    (hn : legalName ([c] :: dom)) {a : Ask} (ha : a.legal) :
    Delivers Ts (a.query .rrset (wire ([c] :: dom)))
      (Ts.filter (wantRrset (leftWild c dom) a.ty a.bw a.times)) :=
  fun sf => rrset_left_from hS hc (offers_plain hS _ sf) hn ha

/-- `*.com`: everything but the root; `+.com`: only `x.com`. -/
example : Delivers exRrsets (Ask.query { ty := some 1 } .rrset (wire ([42] :: exCom)))
      (exRrsets.filter (wantRrset (leftWild 42 exCom) (some 1) none {}))
    ∧ (exRrsets.filter (wantRrset (leftWild 42 exCom) (some 1) none {})).length = 4
    ∧ Delivers exRrsets (Ask.query {} .rrset (wire ([43] :: exCom)))
        [.rrset ⟨[120] :: exCom, 1, exCom, [[9, 9, 9, 8]]⟩ ⟨6, 9, 3⟩] := by
  refine ⟨C19_left_wildcard exRrsets_stored (.inl rfl) (by decide) (a := { ty := some 1 })
    ⟨by simp, by simp⟩, by decide +kernel, ?_⟩
  have h := C19_left_wildcard exRrsets_stored (.inr rfl) (dom := exCom) (by decide) (a := {})
    ⟨by simp, by simp⟩
  have e : exRrsets.filter (wantRrset (leftWild 43 exCom) none none {}) =
      [.rrset ⟨[120] :: exCom, 1, exCom, [[9, 9, 9, 8]]⟩ ⟨6, 9, 3⟩] := by decide +kernel
  rwa [e] at h

end Verif.Props
