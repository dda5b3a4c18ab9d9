import Verif.Lemmas.Rdata
import Verif.Props.Index

/-!
# C21, C22, C25: queries by record data
-/

namespace Verif.Props
open Verif Verif.Spec

/-- An exact query for names in record data over any sources that offer the records. -/
theorem rdata_exact_from {Ts : List Rec} (hS : Stored Ts) {S : Sources} {n : Name} {a : Ask}
    (hO : Offers Ts (a.query .rdataName (wire n)) S) (hn : legalName n) (hp : PlainName n)
    (ha : a.legal) (hty : ∀ t, a.ty = some t → t ∈ nameTypes) {target : RR → Option Name}
    (hT : Targets target Ts) (hB : ∀ t, a.ty = some t → t ∈ bareNameTypes → Bare target t Ts n) :
    DeliversFrom S (a.query .rdataName (wire n)) (Ts.filter (wantRr (namesIn target (· == n)) a.ty a.times)) := by
  have hL : isLeftWildcard (wire n) = none := isLeftWildcard_plain hn.1 hp.1
  have hR : isRightWildcard (wire n) = none := isRightWildcard_plain hn.1 hp.2.1 hp.2.2
  obtain ⟨s, hs, hinit⟩ : ∃ s, (s = [] ∨ ∃ t, a.ty = some t ∧ t ∈ bareNameTypes ∧ s = leb t) ∧
      initKind (a.query .rdataName (wire n)) =
        .ok { onSource := [rdataNameFilter (a.query .rdataName (wire n))], view := .pfx (2 :: (wire n ++ s)) } := by
    have e : initKind (a.query .rdataName (wire n)) = initRdataExact (a.query .rdataName (wire n)) := by
      simp only [initKind, Ask.query, initRdataName, hL, hR]
    rw [e, initRdataExact]
    have hname : (a.query .rdataName (wire n)).name = wire n := rfl
    cases ht : a.ty with
    | none =>
      have hd : (a.query .rdataName (wire n)).doRrtype = false := by simp [Ask.query, ht]
      refine ⟨[], .inl rfl, ?_⟩
      simp [hd, hname]
    | some t =>
      have hd : (a.query .rdataName (wire n)).doRrtype = true := by simp [Ask.query, ht]
      have hrt : (a.query .rdataName (wire n)).rrtype = t := by simp [Ask.query, ht]
      obtain ⟨ht1, ht2⟩ := ha.1 t ht
      by_cases hb : t ∈ bareNameTypes
      · refine ⟨leb t, .inr ⟨t, rfl, hb, rfl⟩, ?_⟩
        rw [if_pos ⟨hd, by rw [hrt, bareNameTypes_contains]; simpa using hb⟩, hrt, addRrtype_leb _ ht1 ht2]
        rfl
      · refine ⟨[], .inl rfl, ?_⟩
        rw [if_neg (by rw [hrt, bareNameTypes_contains]; simpa using fun _ => hb)]
        simp [hname]
  refine ⟨_, hinit, fun ls w hw hl => ?_⟩
  refine (offered_direct hS hO (want := wantRr (namesIn target (· == n)) a.ty a.times) (by rfl)
    (keyOnly_one (keyOnly_rdataNameFilter _)) ?_ (fun x _ h => by obtain ⟨r, o, rfl⟩ := pfx_rr h; rfl) ?_ ls hl hw).1
  · exact ⟨rdataNameFilter_good (rowsIn_rr hS), trivial⟩
  · intro x hx
    have hxl := hS.legal x hx
    refine eq_of_not_rr wantRr_not ?_
    rintro r o rfl
    rw [timePass_row hxl.2 rfl]
    simp only [List.all_cons, List.all_nil, Bool.and_true]
    rw [Rec.row, show (Rec.rr r o).key = r.key from rfl, rdataNameFilter_passes hty hxl.1, ← Bool.and_assoc,
      name_lookup hT hn.1 hB hx hs]
    rfl

/-- C21: a query for a name in record data delivers exactly the records of name-bearing types whose
stored data begin with that name, restricted by type and times, in key order, each once.  `hB`: for a
type whose data should be nothing but a name, no record continues after the name; see
`C21_unsliced_counterexample`.  A requested type must be a name-bearing one; see
`C21_other_type_counterexample`. -/
theorem C21_exact_name_partial {Ts : List Rec} (hS : Stored Ts) {n : Name} (hn : legalName n) (hp : PlainName n)
    {a : Ask} (ha : a.legal) (hty : ∀ t, a.ty = some t → t ∈ nameTypes) {target : RR → Option Name}
    (hT : Targets target Ts) (hB : ∀ t, a.ty = some t → t ∈ bareNameTypes → Bare target t Ts n) :
    Delivers Ts (a.query .rdataName (wire n)) (Ts.filter (wantRr (namesIn target (· == n)) a.ty a.times)) :=
  fun sf => rdata_exact_from hS (offers_plain hS _ sf) hn hp ha hty hT hB

/-- A query for `front.*` in record data over any sources that offer the records. -/
theorem rdata_right_from {Ts : List Rec} (hS : Stored Ts) {S : Sources} {c : UInt8} (hc : c = 42 ∨ c = 43) {front : Name}
    {a : Ask} (hO : Offers Ts (a.query .rdataName (wire (front ++ [[c]]))) S)
    (hn : legalName (front ++ [[c]])) (hty : ∀ t, a.ty = some t → t ∈ nameTypes)
    {target : RR → Option Name} (hT : Targets target Ts)
    (hN : ∀ r o, Rec.rr r o ∈ Ts → r.rrtype ∈ nameTypes → target r = none → ¬ flat front <+: r.tail) :
    DeliversFrom S (a.query .rdataName (wire (front ++ [[c]])))
      (Ts.filter (wantRr (namesIn target (rightWild c front)) a.ty a.times)) := by
  have hf : legalLabels front := (legalLabels_append.1 hn.1).1
  have hR := isRightWildcard_wild front hc
  have htake : (wire (front ++ [[c]])).take ((wire (front ++ [[c]])).length - 3) = flat front := by
    have hw : wire (front ++ [[c]]) = flat front ++ [1, c, 0] := by simp [wire_append, wire_cons]
    rw [hw]; simp
  have hinit : initKind (a.query .rdataName (wire (front ++ [[c]]))) =
      .ok { onSource := rdataNameFilter (a.query .rdataName (wire (front ++ [[c]]))) ::
              singleLabelIf (c == 43) (2 :: flat front), view := .pfx (2 :: flat front) } := by
    simp only [initKind, Ask.query, initRdataName, hR, initRdataRight, htake]
  have hk : ∀ {r : RR} {o : Obs}, Rec.rr r o ∈ Ts → r.rrtype ∈ nameTypes →
      (2 :: flat front <+: r.key ↔ ∃ m, target r = some m ∧ front <+: m) := by
    intro r o hr ht
    rw [rr_key_eq, List.cons_prefix_cons]
    simp only [true_and]
    exact lead_flat (hT r o hr ht) hf (hN r o hr ht) _
  have hnk : ∀ {r : RR} {o : Obs} {m : Name}, Rec.rr r o ∈ Ts → r.rrtype ∈ nameTypes → target r = some m →
      front <+: m → NameKey 2 front r.key m := by
    intro r o m hr ht hm hp
    have := hT r o hr ht
    unfold Leads at this
    rw [hm] at this
    obtain ⟨h1, rest, h2⟩ := this
    refine ⟨h1, hp, rest ++ (leb r.rrtype ++ (wire r.owner.reverse ++ (r.lead ++ word16 r.tail.length))), ?_⟩
    rw [rr_key_eq]; congr 1
    rw [← List.append_assoc (wire m) rest, h2]
  refine ⟨_, hinit, fun ls w hw hl => ?_⟩
  refine (offered_direct hS hO (want := wantRr (namesIn target (rightWild c front)) a.ty a.times) (by rfl)
    (keyOnly_append (keyOnly_one (keyOnly_rdataNameFilter _)) (keyOnly_singleLabelIf _ _)) ?_
    (fun x _ h => by obtain ⟨r, o, rfl⟩ := pfx_rr h; rfl) ?_ ls hl hw).1
  · refine ⟨rdataNameFilter_good (rowsIn_rr hS), ?_⟩
    apply GoodSeq.of_all
    intro f hf
    unfold singleLabelIf filtIf at hf
    split at hf
    · rw [List.mem_singleton] at hf
      subst hf
      apply good_singleLabel (by decide)
      intro kv hkv
      obtain ⟨hkv, hpass⟩ := List.mem_filter.1 hkv
      obtain ⟨x, hx, rfl, hv⟩ := rowsIn_rec hkv
      obtain ⟨r, o, rfl⟩ := pfx_rr hv
      rw [Rec.row, show (Rec.rr r o).key = r.key from rfl, rdataNameFilter_passes hty (hS.legal _ hx).1] at hpass
      have ht : r.rrtype ∈ nameTypes := by
        rw [Bool.and_eq_true] at hpass; simpa using hpass.1
      obtain ⟨m, h1, h2⟩ := (hk hx ht).1 ((inView_pfx _ _).1 hv)
      exact ⟨m, hnk hx ht h1 h2⟩
    · cases hf
  · intro x hx
    have hxl := hS.legal x hx
    refine eq_of_not_rr wantRr_not ?_
    rintro r o rfl
    rw [timePass_row hxl.2 rfl, Rec.row, show (Rec.rr r o).key = r.key from rfl]
    rw [List.all_cons, rdataNameFilter_passes hty hxl.1]
    simp only [wantRr]
    rw [← Bool.and_assoc]
    congr 1
    unfold namesIn
    cases hNt : nameTypes.contains r.rrtype with
    | false => simp
    | true =>
      have ht : r.rrtype ∈ nameTypes := by simpa using hNt
      simp only [Bool.true_and]
      cases a.ty.all (· == r.rrtype) with
      | false => simp
      | true =>
        simp only [Bool.true_and, Bool.and_true]
        rw [Bool.eq_iff_iff, Bool.and_eq_true, inView_pfx, hk hx ht]
        cases hm : target r with
        | none => simp
        | some m =>
          simp only [Option.any_some, Option.some.injEq, exists_eq_left']
          unfold rightWild singleLabelIf filtIf
          rcases hc with rfl | rfl
          · simp
          · simp only [if_true, Bool.and_eq_true, beq_iff_eq, beq_self_eq_true, List.isPrefixOf_iff_prefix,
              List.all_cons, List.all_nil, Bool.and_true]
            constructor
            · rintro ⟨h1, h2⟩
              exact ⟨h2, (singleLabel_passes (by decide) (hnk hx ht hm h2)).2 ((singleLabel_lengths h2).2 h1)⟩
            · rintro ⟨h1, h2⟩
              exact ⟨(singleLabel_lengths h1).1 ((singleLabel_passes (by decide) (hnk hx ht hm h1)).1 h2), h1⟩

/-- C21: a query for `front.*` (or `front.+`) in record data delivers exactly the records of
name-bearing types whose stored data begin with a name that starts with the labels of `front` (and has
exactly one more label).  `hN`: there are no records whose data start with those labels but not with
a name. -/
theorem C21_right_wildcard {Ts : List Rec} (hS : Stored Ts) {c : UInt8} (hc : c = 42 ∨ c = 43) {front : Name}
    (hn : legalName (front ++ [[c]])) {a : Ask} (hty : ∀ t, a.ty = some t → t ∈ nameTypes)
    {target : RR → Option Name} (hT : Targets target Ts)
    (hN : ∀ r o, Rec.rr r o ∈ Ts → r.rrtype ∈ nameTypes → target r = none → ¬ flat front <+: r.tail) :
    Delivers Ts (a.query .rdataName (wire (front ++ [[c]])))
      (Ts.filter (wantRr (namesIn target (rightWild c front)) a.ty a.times)) :=
  fun sf => rdata_right_from hS hc (offers_plain hS _ sf) hn hty hT hN

/-- A query for `*.dom` in record data over any sources that offer the records and list the names. -/
theorem rdata_left_from {Ts Xs : List Rec} (hS : Stored Ts) (hX : Stored Xs) {c : UInt8} (hc : c = 42 ∨ c = 43)
    {dom : Name} (hn : legalName ([c] :: dom)) (hw1 : ¬ endsWild ([c] :: dom)) (hw2 : ¬ endsLikeWild ([c] :: dom))
    {a : Ask} (ha : a.legal) (hty : ∀ t, a.ty = some t → t ∈ nameTypes) {target : RR → Option Name}
    (hT : Targets target Ts) (hI : RevLists target a.ty a.times Xs Ts)
    (hr : ∀ t n s, a.ty = some t → Rec.rev n (some s) ∈ Xs → ¬ endsBefore t s)
    (hB : ∀ t, a.ty = some t → t ∈ bareNameTypes → ∀ n, leftWild c dom n = true → Bare target t Ts n) :
    ∀ S, Offers Ts (a.query .rdataName (wire ([c] :: dom))) S → Lists Xs (a.query .rdataName (wire ([c] :: dom))) S →
      DeliversFrom S (a.query .rdataName (wire ([c] :: dom))) (sortedBy (targetText target)
        (Ts.filter (wantRr (namesIn target fun m => leftWild c dom m && revListed Xs m) a.ty a.times))) := by
  have hd : legalName dom := by
    refine ⟨(legalLabels_cons.1 hn.1).2, ?_⟩
    have := hn.2
    rw [wire_cons] at this
    simp only [List.length_cons, List.length_append] at this
    omega
  have hdr := legalLabels_reverse.mpr hd.1
  have hR : isRightWildcard (wire ([c] :: dom)) = none := isRightWildcard_plain hn.1 hw1 hw2
  let P : Plan :=
    { onIndex := singleLabelIf (c == 43) (3 :: flat dom.reverse)
      onSource := [rdataNameFilter (a.query .rdataName (wire ([c] :: dom)))]
      view := .pfx (3 :: flat dom.reverse), indirect := some 2 }
  have hinit : initKind (a.query .rdataName (wire ([c] :: dom))) = .ok P := by
    simp only [initKind, Ask.query, initRdataName, hR, isLeftWildcard_wild dom hc, initRdataLeft,
      leftWildcardKey_wire 3 hd, Out.ok_bind]
    rfl
  have hpfx : ∀ {n : Name}, legalLabels n → (3 :: flat dom.reverse <+: revIndexKey n ↔ dom <:+ n) := by
    intro n hn
    rw [revIndexKey, List.cons_prefix_cons]
    have := flat_prefix_iff hdr (legalLabels_reverse.mpr hn) []
    rw [List.append_nil] at this
    rw [this, List.reverse_prefix]; simp
  have hnk : ∀ {n : Name}, legalLabels n → dom <:+ n → NameKey 3 dom.reverse (revIndexKey n) n.reverse := by
    intro n hn hs
    exact ⟨legalLabels_reverse.mpr hn, List.reverse_prefix.2 hs, [], by rw [revIndexKey, List.append_nil]⟩
  have hlen : ∀ {n : Name}, dom <:+ n → ((∃ l, n.reverse = dom.reverse ++ [l]) ↔ n.length = dom.length + 1) := by
    intro n hs
    have := singleLabel_lengths (List.reverse_prefix.2 hs)
    simpa using this
  -- the index entries visited
  let want : Rec → Bool := fun x => inView (.pfx (3 :: flat dom.reverse)) x.key &&
    (singleLabelIf (c == 43) (3 :: flat dom.reverse)).all fun f => passes f.2 x.row
  have hwant : ∀ x ∈ Xs, (want x = true ↔ ∃ n s, x = .rev n s ∧ leftWild c dom n = true) := by
    intro x hx
    simp only [want]
    rw [Bool.and_eq_true]
    constructor
    · rintro ⟨h1, h2⟩
      obtain ⟨n, s, rfl⟩ := pfx_rev h1
      have hl := (hX.legal _ hx).1
      have hp := (hpfx hl.1).1 ((inView_pfx _ _).1 h1)
      refine ⟨n, s, rfl, ?_⟩
      unfold leftWild
      rcases hc with rfl | rfl
      · simpa using hp
      · simp only [singleLabelIf, filtIf, beq_self_eq_true, if_true, List.all_cons, List.all_nil, Bool.and_true] at h2
        rw [Rec.row, show (Rec.rev n s).key = revIndexKey n from rfl] at h2
        have := (hlen hp).1 ((singleLabel_passes (by decide) (hnk hl.1 hp)).1 h2)
        simp only [if_true, Bool.and_eq_true, beq_iff_eq, List.isSuffixOf_iff_suffix]
        exact ⟨this, hp⟩
    · rintro ⟨n, s, rfl, h⟩
      have hl := (hX.legal _ hx).1
      have hp : dom <:+ n := by
        unfold leftWild at h
        split at h
        · simp only [Bool.and_eq_true, List.isSuffixOf_iff_suffix] at h; exact h.2
        · simpa using h
      refine ⟨(inView_pfx _ _).2 ((hpfx hl.1).2 hp), ?_⟩
      rcases hc with rfl | rfl
      · rfl
      · simp only [singleLabelIf, filtIf, beq_self_eq_true, if_true, List.all_cons, List.all_nil, Bool.and_true]
        rw [Rec.row, show (Rec.rev n s).key = revIndexKey n from rfl]
        refine (singleLabel_passes (by decide) (hnk hl.1 hp)).2 ((hlen hp).2 ?_)
        simp only [leftWild, if_true, Bool.and_eq_true, beq_iff_eq] at h
        exact h.1
  -- the records found for one of them
  let f : Rec → Rec → Bool := fun x =>
    match x with
    | .rev n _ => wantRr (namesIn target (· == n)) a.ty a.times
    | _ => fun _ => false
  have any_eq : ∀ {r : RR} {n : Name}, (target r).any (· == n) = true → target r = some n := by
    intro r n h
    cases h6 : target r <;> simp [h6] at h ⊢; exact h
  have hsort : ((Xs.filter want).flatMap fun x => Ts.filter (f x)) = sortedBy (targetText target)
      (Ts.filter (wantRr (namesIn target fun m => leftWild c dom m && revListed Xs m) a.ty a.times)) := by
    apply flatMap_filter_sorted (h := fun x => x.key.drop 1)
    · refine List.Pairwise.imp_of_mem ?_ (((once_pairwise hI.once).and (stored_pairwise hX)).filter _)
      intro x y hx hy hxy
      obtain ⟨hx1, hx2⟩ := List.mem_filter.1 hx
      obtain ⟨hy1, hy2⟩ := List.mem_filter.1 hy
      obtain ⟨m, s, rfl, -⟩ := (hwant x hx1).1 hx2
      obtain ⟨n, s', rfl, -⟩ := (hwant y hy1).1 hy2
      rcases lexLe_iff.1 hxy.2 with h | h
      · exact (lexLt_append_left [3] _ _).symm.trans h
      · refine absurd ?_ (hxy.1 m rfl n rfl)
        exact List.reverse_inj.1 (wire_inj (legalLabels_reverse.mpr (hX.legal _ hx1).1.1)
          (legalLabels_reverse.mpr (hX.legal _ hy1).1.1) (List.cons.inj h).2)
    · intro y hy x hx h
      obtain ⟨h1, h2⟩ := List.mem_filter.1 hy
      obtain ⟨n, s, rfl, -⟩ := (hwant y h1).1 h2
      cases x with
      | rr r o =>
        simp only [f, wantRr, namesIn, Bool.and_eq_true] at h
        simp only [targetText, any_eq h.1.1.2]
        rfl
      | _ => simp [f, wantRr] at h
    · intro x hx
      cases x with
      | rr r o =>
        simp only [wantRr, namesIn, Bool.and_eq_true]
        constructor
        · rintro ⟨⟨⟨h1, h2⟩, h3⟩, h4⟩
          cases ht : target r with
          | none => rw [ht] at h2; cases h2
          | some m =>
            rw [ht, Option.any_some, Bool.and_eq_true] at h2
            obtain ⟨h5, h6⟩ := h2
            obtain ⟨y, hy, hym⟩ := List.any_eq_true.1 h6
            cases y with
            | rev n s =>
              have : n = m := by simpa [revName] using hym
              subst this
              refine ⟨_, List.mem_filter.2 ⟨hy, (hwant _ hy).2 ⟨n, s, rfl, h5⟩⟩, ?_⟩
              simp only [f, wantRr, namesIn, ht, Option.any_some, beq_self_eq_true, Bool.and_true, h1, h3, h4]
            | _ => simp [revName] at hym
        · rintro ⟨y, hy, hf⟩
          obtain ⟨h1, h2⟩ := List.mem_filter.1 hy
          obtain ⟨n, s, rfl, h3⟩ := (hwant y h1).1 h2
          simp only [f, wantRr, namesIn, Bool.and_eq_true] at hf
          obtain ⟨⟨⟨h4, h5⟩, h6⟩, h7⟩ := hf
          rw [any_eq h5]
          refine ⟨⟨⟨h4, ?_⟩, h6⟩, h7⟩
          simp only [Option.any_some, h3, Bool.true_and]
          exact List.any_eq_true.2 ⟨_, h1, by simp [revName]⟩
      | _ =>
        simp only [wantRr, Bool.false_eq_true, false_iff]
        rintro ⟨y, hy, hf⟩
        cases y <;> simp [f, wantRr] at hf
  refine fun S hO hL => ⟨_, hinit, fun ls w hw hl => ?_⟩
  rw [← hsort]
  refine (offered_indirect hS hX hO hL (p := P) (tb := 2) (E := fun x => Ts.filter (f x)) rfl
    (keyOnly_one (keyOnly_rdataNameFilter _)) ?_ ?_ ls hl hw).1
  · apply GoodSeq.of_all
    intro g hg
    simp only [P, singleLabelIf, filtIf] at hg
    split at hg
    · rw [List.mem_singleton] at hg
      subst hg
      apply good_singleLabel (by decide)
      intro kv hkv
      obtain ⟨x, hx, rfl, hv⟩ := rowsIn_rec hkv
      obtain ⟨n, s, rfl⟩ := pfx_rev hv
      have hr := (hX.legal _ hx).1.1
      exact ⟨_, hnk hr ((hpfx hr).1 ((inView_pfx _ _).1 hv))⟩
    · simp at hg
  · intro x hx hv hp
    have hwx : want x = true := by simp only [want]; rw [Bool.and_eq_true]; exact ⟨hv, hp⟩
    obtain ⟨n, s, rfl, hln⟩ := (hwant x hx).1 hwx
    obtain ⟨hnl, hsw⟩ := hX.legal _ hx
    have hk : (revIndexKey n).drop 1 = wire n.reverse := rfl
    obtain ⟨o, h1, h2, h3⟩ := indirectKey_entry ha (kind := .rdataName) (nm := wire ([c] :: dom))
      (tb := 2) (.inr rfl) (legalLabels_reverse.mpr hnl.1) hk hsw (fun t y ht hy => hr t n y ht (hy ▸ hx))
    rw [List.reverse_reverse] at h3
    refine ⟨o, h1, fun ho => ?_, fun k hk => ?_⟩
    · obtain ⟨t, ht, y, rfl, hy⟩ := h2 ho
      rw [List.filter_eq_nil_iff]
      intro z hz hfz
      cases z with
      | rr r ob =>
        simp only [f, wantRr, ht, Bool.and_eq_true, beq_iff_eq, Option.all_some, namesIn] at hfz
        obtain ⟨⟨⟨-, h4⟩, rfl⟩, hb⟩ := hfz
        have h5 : target r = some n := by
          cases h6 : target r <;> simp [h6] at h4 ⊢; exact h4
        have := hI.types r ob n y hz hb ht h5 hx
        rw [this] at hy; cases hy
      | _ => simp [f, wantRr] at hfz
    · have hk' := h3 k hk
      have hs : lookupType 2 a.ty = [] ∨ ∃ t, a.ty = some t ∧ t ∈ bareNameTypes ∧ lookupType 2 a.ty = leb t := by
        unfold lookupType
        cases ht : a.ty with
        | none => exact .inl rfl
        | some t =>
          simp only [bareNameTypes_contains]
          by_cases hb : t ∈ bareNameTypes
          · exact .inr ⟨t, rfl, hb, if_pos (.inr (by simpa using hb))⟩
          · exact .inl (if_neg (by simpa using hb))
      refine ⟨⟨?_, trivial⟩, fun y _ hy => ?_, ?_⟩
      · rw [hk']; exact rdataNameFilter_good (rowsIn_rr hS)
      · rw [hk'] at hy
        obtain ⟨r, o, rfl⟩ := pfx_rr hy; rfl
      · apply List.filter_congr
        intro y hy
        have hyl := hS.legal y hy
        rw [hk']
        apply eq_of_not_rr (want := f (.rev n s))
        · exact wantRr_not
        · rintro r ob rfl
          have hrl := hyl.1
          rw [timePass_row hyl.2 rfl, Rec.row, show (Rec.rr r ob).key = r.key from rfl]
          simp only [P, List.all_cons, List.all_nil, Bool.and_true]
          rw [rdataNameFilter_passes hty hrl, ← Bool.and_assoc,
            name_lookup hT hnl.1 (fun t ht htb => hB t ht htb n hln) hy hs]
          rfl

/-- C22: a query for `*.dom` (or `+.dom`) in record data delivers exactly the records of name-bearing
types whose stored data begin with `dom` or a name below it (with exactly one label more), as far as
that name is listed in the reverse index; each once, restricted by type and times.  They come in the
order of those names read from the last label, those of one name in the order of the table.  Hypotheses as for C20 and C21. -/
theorem C22_left_wildcard_listed_partial {Ts : List Rec} (hS : Stored Ts) {c : UInt8} (hc : c = 42 ∨ c = 43)
    {dom : Name} (hn : legalName ([c] :: dom)) (hw1 : ¬ endsWild ([c] :: dom)) (hw2 : ¬ endsLikeWild ([c] :: dom))
    {a : Ask} (ha : a.legal) (hty : ∀ t, a.ty = some t → t ∈ nameTypes) {target : RR → Option Name}
    (hT : Targets target Ts) (hI : RevIndexed target a.ty Ts)
    (hr : ∀ t n s, a.ty = some t → Rec.rev n (some s) ∈ Ts → ¬ endsBefore t s)
    (hB : ∀ t, a.ty = some t → t ∈ bareNameTypes → ∀ n, leftWild c dom n = true → Bare target t Ts n) :
    Delivers Ts (a.query .rdataName (wire ([c] :: dom))) (sortedBy (targetText target)
      (Ts.filter (wantRr (namesIn target fun m => leftWild c dom m && revListed Ts m) a.ty a.times))) :=
  fun sf => rdata_left_from hS hS hc hn hw1 hw2 ha hty hT (hI.lists a.times) hr hB _ (offers_plain hS _ sf)
    (lists_plain hS _ sf)

/-- C22, with a reverse index that lists every name of the types asked for. -/
theorem C22_left_wildcard_partial {Ts : List Rec} (hS : Stored Ts) {c : UInt8} (hc : c = 42 ∨ c = 43)
    {dom : Name} (hn : legalName ([c] :: dom)) (hw1 : ¬ endsWild ([c] :: dom)) (hw2 : ¬ endsLikeWild ([c] :: dom))
    {a : Ask} (ha : a.legal) (hty : ∀ t, a.ty = some t → t ∈ nameTypes) {target : RR → Option Name}
    (hT : Targets target Ts) (hI : RevIndexed target a.ty Ts)
    (hC : RevComplete target (fun t => nameTypes.contains t && a.ty.all (· == t)) Ts)
    (hr : ∀ t n s, a.ty = some t → Rec.rev n (some s) ∈ Ts → ¬ endsBefore t s)
    (hB : ∀ t, a.ty = some t → t ∈ bareNameTypes → ∀ n, leftWild c dom n = true → Bare target t Ts n) :
    Delivers Ts (a.query .rdataName (wire ([c] :: dom)))
      (sortedBy (targetText target) (Ts.filter (wantRr (namesIn target (leftWild c dom)) a.ty a.times))) := by
  have h2 := C22_left_wildcard_listed_partial hS hc hn hw1 hw2 ha hty hT hI hr hB
  have e : Ts.filter (wantRr (namesIn target fun m => leftWild c dom m && revListed Ts m) a.ty a.times) =
      Ts.filter (wantRr (namesIn target (leftWild c dom)) a.ty a.times) := by
    apply List.filter_congr
    intro x hx
    cases x with
    | rr r o =>
      simp only [wantRr, namesIn]
      cases h3 : nameTypes.contains r.rrtype with
      | false => simp
      | true =>
        cases h4 : a.ty.all (· == r.rrtype) with
        | false => simp
        | true =>
          cases ht : target r with
          | none => simp
          | some m => simp [hC r o m hx (by simp only [h3, h4, Bool.and_self]) ht]
    | _ => rfl
  rwa [e] at h2

/-! ## Examples -/

/-- Records with data `a.com` (NS; SOA with more data after the name), `com` (NS) and their index. -/
def exRdata : List Rec :=
  [.rr ⟨[], 2, [], wire [[97], [99, 111, 109]]⟩ ⟨5, 9, 1⟩,
   .rr ⟨[[98]], 6, [], wire [[97], [99, 111, 109]] ++ [7, 7]⟩ ⟨5, 9, 1⟩,
   .rr ⟨[], 1, [], [1, 97, 9, 9]⟩ ⟨5, 9, 1⟩,
   .rr ⟨[], 2, [], wire exCom⟩ ⟨5, 9, 1⟩,
   .rev exCom none,
   .rev [[97], [99, 111, 109]] (some (.bitmap [⟨0, [0x22]⟩]))]

/-- The names in `exRdata`. -/
def exTarget (r : RR) : Option Name :=
  if r.tail = wire exCom then some exCom else some [[97], [99, 111, 109]]

theorem exRdata_stored : Stored exRdata := by
  refine ⟨?_, by decide +kernel⟩
  intro x hx
  simp only [exRdata, List.mem_cons, List.not_mem_nil, or_false] at hx
  rcases hx with rfl | rfl | rfl | rfl | rfl | rfl
  · simp only [Rec.legal]; decide +kernel
  · simp only [Rec.legal]; decide +kernel
  · simp only [Rec.legal]; decide +kernel
  · simp only [Rec.legal]; decide +kernel
  · exact ⟨by decide +kernel, by simp⟩
  · refine ⟨by decide +kernel, fun t ht => ?_⟩
    rw [← Option.some.inj ht]; decide

theorem exRdata_targets : Targets exTarget exRdata := by
  intro r o h ht
  simp only [exRdata, List.mem_cons, List.not_mem_nil, or_false, Rec.rr.injEq, reduceCtorEq] at h
  rcases h with ⟨rfl, -⟩ | ⟨rfl, -⟩ | ⟨rfl, -⟩ | ⟨rfl, -⟩
  · exact ⟨by decide, by decide +kernel⟩
  · exact ⟨by decide, by decide +kernel⟩
  · exact absurd ht (by decide)
  · exact ⟨by decide, by decide +kernel⟩

theorem exRdata_bare (n : Name) : Bare exTarget 2 exRdata n := by
  intro r o h ht htn
  simp only [exRdata, List.mem_cons, List.not_mem_nil, or_false, Rec.rr.injEq, reduceCtorEq] at h
  rcases h with ⟨rfl, -⟩ | ⟨rfl, -⟩ | ⟨rfl, -⟩ | ⟨rfl, -⟩
  · have : n = [[97], [99, 111, 109]] := (Option.some.inj htn).symm
    rw [this]
  · cases ht
  · cases ht
  · have : n = exCom := (Option.some.inj htn).symm
    rw [this]

theorem plain_a : PlainName [[97], [99, 111, 109]] := by
  refine ⟨?_, ?_, ?_⟩
  · rintro ⟨c, m, h, hc⟩
    simp only [List.cons.injEq, and_true] at h
    rw [← h.1] at hc; revert hc; decide
  · rintro ⟨c, m, h, -⟩
    have := congrArg List.getLast? h
    simp at this
  · rintro ⟨p, c, m, h, hc⟩
    have := congrArg List.getLast? h
    simp only [List.getLast?_append, List.getLast?_singleton, Option.some_or] at this
    have := congrArg List.getLast? (Option.some.inj this)
    simp at this
    rcases hc with rfl | rfl <;> simp at this

/-- `a.com` is found twice, and once as NS; `a.+` finds the same; `+.com` through the index too; `*.com` finds `com` before
`a.com`, although the table has them in the other order. -/
example :
    (∃ E, Delivers exRdata (Ask.query {} .rdataName (wire [[97], [99, 111, 109]])) E ∧ E.length = 2)
    ∧ (∃ E, Delivers exRdata (Ask.query { ty := some 2 } .rdataName (wire [[97], [99, 111, 109]])) E ∧ E.length = 1)
    ∧ (∃ E, Delivers exRdata (Ask.query {} .rdataName (wire [[97], [43]])) E ∧ E.length = 2)
    ∧ Delivers exRdata (Ask.query { ty := some 2 } .rdataName (wire [[43], [99, 111, 109]]))
      [.rr ⟨[], 2, [], wire [[97], [99, 111, 109]]⟩ ⟨5, 9, 1⟩]
    ∧ Delivers exRdata (Ask.query { ty := some 2 } .rdataName (wire [[42], [99, 111, 109]]))
      [.rr ⟨[], 2, [], wire exCom⟩ ⟨5, 9, 1⟩, .rr ⟨[], 2, [], wire [[97], [99, 111, 109]]⟩ ⟨5, 9, 1⟩] := by
  have hidx : RevIndexed exTarget (some 2) exRdata := by
    refine ⟨?_, by decide +kernel⟩
    intro r o n s hr ht htn hs
    simp only [exRdata, List.mem_cons, List.not_mem_nil, or_false, false_or, Rec.rev.injEq, Option.some.injEq,
      reduceCtorEq, and_false] at hs
    rw [hs.2, ← Option.some.inj ht]; decide
  have hcompl : RevComplete exTarget (fun t => nameTypes.contains t && (some 2).all (· == t)) exRdata := by
    intro r o n hr ht htn
    simp only [exRdata, List.mem_cons, List.not_mem_nil, or_false, Rec.rr.injEq, reduceCtorEq] at hr
    rcases hr with ⟨rfl, -⟩ | ⟨rfl, -⟩ | ⟨rfl, -⟩ | ⟨rfl, -⟩
    · rw [(Option.some.inj htn).symm]; decide +kernel
    · exact absurd ht (by decide)
    · exact absurd ht (by decide)
    · rw [(Option.some.inj htn).symm]; decide +kernel
  have hends : ∀ t n s, (some 2 : Option Nat) = some t → Rec.rev n (some s) ∈ exRdata → ¬ endsBefore t s := by
    intro t n s ht hs
    simp only [exRdata, List.mem_cons, List.not_mem_nil, or_false, false_or, Rec.rev.injEq, Option.some.injEq,
      reduceCtorEq, and_false] at hs
    rw [hs.2, ← Option.some.inj ht]
    rintro ⟨bl, b, h, h2, h3⟩
    have hb : b = ⟨0, [0x22]⟩ := by
      cases bl with
      | nil => simpa using h.symm
      | cons _ _ => simp at h
    rw [hb] at h3
    simp at h3
  have hw1 : ∀ x, ¬ endsWild [[x], [99, 111, 109]] := by
    rintro x ⟨c, m, h, -⟩
    have := congrArg List.getLast? h
    simp at this
  have hw2 : ∀ x, ¬ endsLikeWild [[x], [99, 111, 109]] := by
    rintro x ⟨p, c, m, h, hc⟩
    have := congrArg List.getLast? h
    simp only [List.getLast?_append, List.getLast?_singleton, Option.some_or] at this
    have := congrArg List.getLast? (Option.some.inj this)
    simp at this
    rcases hc with rfl | rfl <;> simp at this
  refine ⟨?_, ?_, ?_, ?_, ?_⟩
  · exact ⟨_, C21_exact_name_partial exRdata_stored (by decide) plain_a (a := {}) ⟨by simp, by simp⟩ (by simp)
      exRdata_targets (by simp), by decide +kernel⟩
  · refine ⟨_, C21_exact_name_partial exRdata_stored (by decide) plain_a (a := { ty := some 2 }) ⟨by simp, by simp⟩
      (by simp [nameTypes]) exRdata_targets ?_, by decide +kernel⟩
    intro t ht _
    rw [← Option.some.inj ht]; exact exRdata_bare _
  · exact ⟨_, C21_right_wildcard exRdata_stored (c := 43) (.inr rfl) (front := [[97]]) (by decide) (a := {}) (by simp)
      exRdata_targets (by intro r o _ _ h; unfold exTarget at h; split at h <;> cases h), by decide +kernel⟩
  · have h := C22_left_wildcard_partial exRdata_stored (c := 43) (.inr rfl) (dom := exCom) (by decide)
      (hw1 _) (hw2 _) (a := { ty := some 2 }) ⟨by simp, by simp⟩ (by simp [nameTypes]) exRdata_targets hidx hcompl hends
      (by intro t ht _ n _; rw [← Option.some.inj ht]; exact exRdata_bare _)
    have e : sortedBy (targetText exTarget) (exRdata.filter (wantRr (namesIn exTarget (leftWild 43 exCom)) (some 2) {})) =
        [.rr ⟨[], 2, [], wire [[97], [99, 111, 109]]⟩ ⟨5, 9, 1⟩] :=
      sortedBy_eq (by decide +kernel) (by decide +kernel)
    rw [← e]; exact h
  · have h := C22_left_wildcard_partial exRdata_stored (c := 42) (.inl rfl) (dom := exCom) (by decide)
      (hw1 _) (hw2 _) (a := { ty := some 2 }) ⟨by simp, by simp⟩ (by simp [nameTypes]) exRdata_targets hidx hcompl hends
      (by intro t ht _ n _; rw [← Option.some.inj ht]; exact exRdata_bare _)
    have e : sortedBy (targetText exTarget) (exRdata.filter (wantRr (namesIn exTarget (leftWild 42 exCom)) (some 2) {})) =
        [.rr ⟨[], 2, [], wire exCom⟩ ⟨5, 9, 1⟩, .rr ⟨[], 2, [], wire [[97], [99, 111, 109]]⟩ ⟨5, 9, 1⟩] :=
      sortedBy_eq (by decide +kernel) (by decide +kernel)
    rw [← e]; exact h

/-! ## Where C21 and C22 fail -/

/-- A table of one record without data limits. -/
theorem stored_one {x : Rec} (h : x.legal) : Stored [x] :=
  ⟨fun y hy => by rw [List.mem_singleton.1 hy]; exact h, by simp [Sorted]⟩

/-- C21 fails for a type that bears no names: asking for `com` among TXT records delivers a record
whose data happen to be the bytes of `com`. -/
theorem C21_other_type_counterexample :
    ∃ (Ts : List Rec) (target : RR → Option Name), Stored Ts ∧ Targets target Ts ∧
      ¬ Delivers Ts (Ask.query { ty := some 16 } .rdataName (wire exCom))
        (Ts.filter (wantRr (namesIn target (· == exCom)) (some 16) {})) := by
  refine ⟨[.rr ⟨[], 16, [], wire exCom⟩ ⟨5, 9, 1⟩], fun _ => none, stored_one ?_, ?_, ?_⟩
  · simp only [Rec.legal]; decide +kernel
  · intro r o h ht
    simp only [List.mem_singleton, Rec.rr.injEq] at h
    rw [h.1] at ht; exact absurd ht (by decide)
  · intro h
    have h1 := h.first (p := _) rfl rfl
    revert h1
    decide +kernel

/-- C21 fails for unsliced MX (or SRV) records: the data of this one, preference 1 and exchanger root,
begin with the root name, and an untyped query for the root delivers it; a query with type MX, which
looks for the name followed by the type, does not. -/
theorem C21_unsliced_counterexample :
    ∃ (Ts : List Rec) (target : RR → Option Name), Stored Ts ∧ Targets target Ts ∧
      Delivers Ts (Ask.query {} .rdataName (wire [])) Ts ∧
      Ts.filter (wantRr (namesIn target (· == [])) (some 15) {}) = Ts ∧
      ¬ Delivers Ts (Ask.query { ty := some 15 } .rdataName (wire [])) Ts := by
  have hT : Targets (fun _ => some []) [.rr ⟨[], 15, [], [0, 1, 0]⟩ ⟨5, 9, 1⟩] := by
    intro r o h ht
    simp only [List.mem_singleton, Rec.rr.injEq] at h
    rw [h.1]
    exact ⟨by decide, by decide⟩
  have hs : Stored [.rr ⟨[], 15, [], [0, 1, 0]⟩ ⟨5, 9, 1⟩] := stored_one (by simp only [Rec.legal]; decide +kernel)
  refine ⟨[.rr ⟨[], 15, [], [0, 1, 0]⟩ ⟨5, 9, 1⟩], fun _ => some [], hs, hT, ?_, by decide +kernel, ?_⟩
  · have h := C21_exact_name_partial hs (n := []) (by decide) ⟨?_, ?_, ?_⟩ (a := {}) ⟨by simp, by simp⟩ (by simp)
      hT (by simp)
    · have e : [Rec.rr ⟨[], 15, [], [0, 1, 0]⟩ ⟨5, 9, 1⟩].filter (wantRr (namesIn (fun _ => some []) (· == [])) none {}) =
        [Rec.rr ⟨[], 15, [], [0, 1, 0]⟩ ⟨5, 9, 1⟩] := by decide +kernel
      rwa [e] at h
    · rintro ⟨c, m, h, -⟩; cases h
    · rintro ⟨c, m, h, -⟩; simp at h
    · rintro ⟨p, c, m, h, -⟩; simp at h
  · intro h
    have h1 := h.first (p := _) rfl rfl
    revert h1
    decide +kernel

/-- C22 fails for name-bearing types that the documented index does not cover: an NSEC record pointing
to `a.com` is delivered for `a.com`, but not for `*.com`. -/
theorem C22_unlisted_type_counterexample :
    ∃ (Ts : List Rec) (target : RR → Option Name), Stored Ts ∧ Targets target Ts ∧
      RevIndexed target none Ts ∧ RevComplete target (fun t => indexedTypes.contains t) Ts ∧
      Ts.filter (wantRr (namesIn target (leftWild 42 exCom)) none {}) = Ts ∧
      ∀ E, E.Perm Ts → ¬ Delivers Ts (Ask.query {} .rdataName (wire ([42] :: exCom))) E := by
  refine ⟨[.rr ⟨[], 47, [], wire [[97], [99, 111, 109]] ++ [0, 1, 2]⟩ ⟨5, 9, 1⟩], fun _ => some [[97], [99, 111, 109]],
    stored_one (by simp only [Rec.legal]; decide +kernel), ?_, ⟨?_, by decide⟩, ?_, by decide +kernel, ?_⟩
  · intro r o h ht
    simp only [List.mem_singleton, Rec.rr.injEq] at h
    rw [h.1]
    exact ⟨by decide, by decide +kernel⟩
  · intro r o n s _ h; cases h
  · intro r o n h ht
    simp only [List.mem_singleton, Rec.rr.injEq] at h
    rw [h.1] at ht; exact absurd ht (by decide)
  · intro E hE h
    rw [List.perm_singleton] at hE
    subst hE
    have hinit : initKind (Ask.query {} .rdataName (wire ([42] :: exCom))) =
        .ok { onIndex := singleLabelIf (42 == 43) (3 :: flat exCom.reverse)
              onSource := [rdataNameFilter (Ask.query {} .rdataName (wire ([42] :: exCom)))]
              view := .pfx (3 :: flat exCom.reverse), indirect := some 2 } := by
      have hR : isRightWildcard (wire ([42] :: exCom)) = none := by decide +kernel
      simp only [initKind, Ask.query, initRdataName, hR, isLeftWildcard_wild exCom (c := 42) (.inl rfl), initRdataLeft,
        leftWildcardKey_wire 3 (m := exCom) (by decide), Out.ok_bind]
      rfl
    have h1 := h.first hinit rfl
    revert h1
    decide +kernel

/-! ## Raw data -/

/-- A raw query over any sources that offer the records. -/
theorem rdata_raw_from {Ts : List Rec} (hS : Stored Ts) {S : Sources} (d : Bytes) (a : Ask)
    (hO : Offers Ts { a.query .rdataRaw [] with rdata := some d, lenRdata := d.length } S) :
    DeliversFrom S { a.query .rdataRaw [] with rdata := some d, lenRdata := d.length }
      (Ts.filter (wantRr (fun r => d.isPrefixOf (r.tail ++ leb r.rrtype ++ wire r.owner.reverse ++ r.lead
        ++ word16 r.tail.length)) a.ty a.times)) := by
  let q : Query := { a.query .rdataRaw [] with rdata := some d, lenRdata := d.length }
  have hinit : initKind q = .ok { onSource := rrtypeIf q, view := .pfx (2 :: d) } := by
    simp only [q, initKind, Ask.query, initRdataRaw, rdataBytes, Nat.le_refl, if_true, List.take_length, Out.ok_bind]
  refine ⟨_, hinit, fun ls w hw hl => ?_⟩
  have hf : rrtypeIf q = rrtypeIf (a.query .rdataRaw []) := rfl
  refine (offered_direct hS hO (want := wantRr _ a.ty a.times) (by rfl) (keyOnly_rrtypeIf _) ?_
    (fun x _ h => by obtain ⟨r, o, rfl⟩ := pfx_rr h; rfl) ?_ ls hl hw).1
  · apply GoodSeq.of_all
    intro f hff
    rw [hf, Ask.rrtypeIf_eq] at hff
    cases hty : a.ty with
    | none => simp [hty] at hff
    | some t =>
      simp only [hty, List.mem_singleton] at hff
      subst hff
      exact good_rrtype _ fun kv hkv => .inr (rowsIn_rr hS kv hkv)
  · intro x hx
    have hxl := hS.legal x hx
    refine eq_of_not_rr wantRr_not ?_
    rintro r o rfl
    have hb : q.bounds = a.times := rfl
    change wantRr _ _ _ _ = (_ && ((rrtypeIf q).all _ && timePass q.bounds _))
    rw [hb, timePass_row hxl.2 rfl, Rec.row, show (Rec.rr r o).key = r.key from rfl, hf, Ask.rrtypeIf_eq,
      ← Bool.and_assoc]
    simp only [wantRr]
    have hv : inView (.pfx (2 :: d)) r.key = d.isPrefixOf (r.tail ++ leb r.rrtype ++ wire r.owner.reverse ++ r.lead
        ++ word16 r.tail.length) := by
      rw [Bool.eq_iff_iff, inView_pfx, RR.key, List.cons_prefix_cons]
      simp [-List.append_assoc]
    rw [hv]
    cases a.ty with
    | none => simp
    | some t => simp [passes_rrtype_rr hxl.1]

/-- C25: a raw query delivers exactly the records for which the given bytes begin the stored data
followed by the type, owner and the rest of the key (and which have the given type, and times), in key
order, each once. -/
theorem C25_raw {Ts : List Rec} (hS : Stored Ts) (d : Bytes) (a : Ask) :
    Delivers Ts { a.query .rdataRaw [] with rdata := some d, lenRdata := d.length }
      (Ts.filter (wantRr (fun r => d.isPrefixOf (r.tail ++ leb r.rrtype ++ wire r.owner.reverse ++ r.lead
        ++ word16 r.tail.length)) a.ty a.times)) :=
  fun sf => rdata_raw_from hS d a (offers_plain hS _ sf)

/-- C25 as documented, for bytes that do not reach beyond the type. -/
theorem C25_raw_short {Ts : List Rec} (hS : Stored Ts) (d : Bytes) (a : Ask)
    (hd : ∀ r o, Rec.rr r o ∈ Ts → d.length ≤ (r.tail ++ leb r.rrtype).length) :
    Delivers Ts { a.query .rdataRaw [] with rdata := some d, lenRdata := d.length }
      (Ts.filter (wantRr (fun r => d.isPrefixOf (r.tail ++ leb r.rrtype)) a.ty a.times)) := by
  have e : Ts.filter (wantRr (fun r => d.isPrefixOf (r.tail ++ leb r.rrtype ++ wire r.owner.reverse ++ r.lead
        ++ word16 r.tail.length)) a.ty a.times) =
      Ts.filter (wantRr (fun r => d.isPrefixOf (r.tail ++ leb r.rrtype)) a.ty a.times) := by
    apply List.filter_congr
    intro x hx
    cases x with
    | rr r o =>
      simp only [wantRr]
      congr 2
      rw [Bool.eq_iff_iff, List.isPrefixOf_iff_prefix, List.isPrefixOf_iff_prefix, List.append_assoc (_ ++ _),
        List.append_assoc (_ ++ _)]
      constructor
      · intro h
        exact List.prefix_of_prefix_length_le h (List.prefix_append _ _) (hd r o hx)
      · exact fun h => h.trans (List.prefix_append _ _)
    | _ => rfl
  rw [← e]
  exact C25_raw hS d a

example : Delivers exRdata
    { Ask.query {} .rdataRaw [] with rdata := some (wire [[97], [99, 111, 109]] ++ [2]), lenRdata := 8 }
    [.rr ⟨[], 2, [], wire [[97], [99, 111, 109]]⟩ ⟨5, 9, 1⟩] := by
  have h := C25_raw exRdata_stored (wire [[97], [99, 111, 109]] ++ [2]) {}
  have e : exRdata.filter (wantRr (fun r => (wire [[97], [99, 111, 109]] ++ [2]).isPrefixOf (r.tail ++ leb r.rrtype ++
      wire r.owner.reverse ++ r.lead ++ word16 r.tail.length)) none {}) =
      [.rr ⟨[], 2, [], wire [[97], [99, 111, 109]]⟩ ⟨5, 9, 1⟩] := by decide +kernel
  rwa [e] at h

end Verif.Props
