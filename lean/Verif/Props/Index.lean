import Verif.Lemmas.Index
import Verif.Props.Rrset

/-!
# C20, C22: queries through the name indexes
-/

namespace Verif.Props
open Verif Verif.Spec

/-- A query for `front.*` over any sources that offer the records and list the names. -/
theorem rrset_right_from {Ts Xs : List Rec} (hS : Stored Ts) (hX : Stored Xs) {c : UInt8}
    (hc : c = 42 ∨ c = 43) {front : Name} (hn : legalName (front ++ [[c]])) (hw : ¬ startsWild (front ++ [[c]]))
    {a : Ask} (hI : FwdLists a.times Xs Ts) (ha : a.legal)
    (hr : ∀ t n s, a.ty = some t → Rec.fwd n (some s) ∈ Xs → ¬ endsBefore t s) :
    ∀ S, Offers Ts (a.query .rrset (wire (front ++ [[c]]))) S → Lists Xs (a.query .rrset (wire (front ++ [[c]]))) S →
      DeliversFrom S (a.query .rrset (wire (front ++ [[c]])))
        (sortedBy ownerText (Ts.filter (wantRrset (rightWild c front) a.ty a.bw a.times))) := by
  have hf : legalLabels front := (legalLabels_append.1 hn.1).1
  have hL : isLeftWildcard (wire (front ++ [[c]])) = none := isLeftWildcard_plain hn.1 hw
  have hR := isRightWildcard_wild front hc
  have htake : (wire (front ++ [[c]])).take ((wire (front ++ [[c]])).length - 3) = flat front := by
    have hw : wire (front ++ [[c]]) = flat front ++ [1, c, 0] := by simp [wire_append, wire_cons]
    rw [hw]; simp
  let P : Plan :=
    { onIndex := singleLabelIf (c == 43) (1 :: flat front)
      onSource := rrtypeIf (a.query .rrset (wire (front ++ [[c]]))) ++
        bailiwickIf (a.query .rrset (wire (front ++ [[c]])))
      view := .pfx (1 :: flat front), indirect := some 0 }
  have hinit : initKind (a.query .rrset (wire (front ++ [[c]]))) = .ok P := by
    simp only [initKind, Ask.query, initRrset, hL, hR, initRrsetRight, htake]
    rfl
  have hpfx : ∀ {n : Name}, legalLabels n → (1 :: flat front <+: fwdIndexKey n ↔ front <+: n) := by
    intro n hn
    rw [fwdIndexKey, List.cons_prefix_cons]
    have := flat_prefix_iff hf hn []
    rw [List.append_nil] at this
    rw [this]; simp
  have hnk : ∀ {n : Name}, legalLabels n → front <+: n → NameKey 1 front (fwdIndexKey n) n := by
    intro n hn hs
    exact ⟨hn, hs, [], by rw [fwdIndexKey, List.append_nil]⟩
  -- the index entries visited
  let want : Rec → Bool := fun x =>
    inView (.pfx (1 :: flat front)) x.key && (singleLabelIf (c == 43) (1 :: flat front)).all fun f => passes f.2 x.row
  have hwant : ∀ x ∈ Xs, (want x = true ↔ ∃ n s, x = .fwd n s ∧ rightWild c front n = true) := by
    intro x hx
    simp only [want]
    rw [Bool.and_eq_true]
    constructor
    · rintro ⟨h1, h2⟩
      obtain ⟨n, s, rfl⟩ := pfx_fwd h1
      have hl := (hX.legal _ hx).1
      have hp := (hpfx hl.1).1 ((inView_pfx _ _).1 h1)
      refine ⟨n, s, rfl, ?_⟩
      unfold rightWild
      rcases hc with rfl | rfl
      · simpa using hp
      · simp only [singleLabelIf, filtIf, beq_self_eq_true, if_true, List.all_cons, List.all_nil, Bool.and_true] at h2
        rw [Rec.row, show (Rec.fwd n s).key = fwdIndexKey n from rfl] at h2
        have := (singleLabel_lengths hp).1 ((singleLabel_passes (by decide) (hnk hl.1 hp)).1 h2)
        simp only [if_true, Bool.and_eq_true, beq_iff_eq, List.isPrefixOf_iff_prefix]
        exact ⟨this, hp⟩
    · rintro ⟨n, s, rfl, h⟩
      have hl := (hX.legal _ hx).1
      have hp : front <+: n := by
        unfold rightWild at h
        split at h
        · simp only [Bool.and_eq_true, List.isPrefixOf_iff_prefix] at h; exact h.2
        · simpa using h
      refine ⟨(inView_pfx _ _).2 ((hpfx hl.1).2 hp), ?_⟩
      rcases hc with rfl | rfl
      · rfl
      · simp only [singleLabelIf, filtIf, beq_self_eq_true, if_true, List.all_cons, List.all_nil, Bool.and_true]
        rw [Rec.row, show (Rec.fwd n s).key = fwdIndexKey n from rfl]
        refine (singleLabel_passes (by decide) (hnk hl.1 hp)).2 ((singleLabel_lengths hp).2 ?_)
        simp only [rightWild, if_true, Bool.and_eq_true, beq_iff_eq] at h
        exact h.1
  -- the RRsets found for one of them
  let f : Rec → Rec → Bool := fun x =>
    match x with
    | .fwd n _ => wantRrset (· == n) a.ty a.bw a.times
    | _ => fun _ => false
  have hsort : ((Xs.filter want).flatMap fun x => Ts.filter (f x)) =
      sortedBy ownerText (Ts.filter (wantRrset (rightWild c front) a.ty a.bw a.times)) := by
    apply flatMap_filter_sorted (h := fun x => x.key.drop 1)
    · refine List.Pairwise.imp_of_mem ?_ (((once_pairwise hI.once).and (stored_pairwise hX)).filter _)
      intro x y hx hy hxy
      obtain ⟨hx1, hx2⟩ := List.mem_filter.1 hx
      obtain ⟨hy1, hy2⟩ := List.mem_filter.1 hy
      obtain ⟨m, s, rfl, -⟩ := (hwant x hx1).1 hx2
      obtain ⟨n, s', rfl, -⟩ := (hwant y hy1).1 hy2
      rcases lexLe_iff.1 hxy.2 with h | h
      · exact (lexLt_append_left [1] _ _).symm.trans h
      · refine absurd ?_ (hxy.1 m rfl n rfl)
        exact wire_inj (hX.legal _ hx1).1.1 (hX.legal _ hy1).1.1 (List.cons.inj h).2
    · intro y hy x hx h
      obtain ⟨h1, h2⟩ := List.mem_filter.1 hy
      obtain ⟨n, s, rfl, -⟩ := (hwant y h1).1 h2
      cases x with
      | rrset r o =>
        simp only [f, wantRrset, Bool.and_eq_true, beq_iff_eq] at h
        exact congrArg wire h.1.1.1
      | _ => simp [f, wantRrset] at h
    · intro x hx
      cases x with
      | rrset r o =>
        constructor
        · intro h
          simp only [wantRrset, Bool.and_eq_true] at h
          obtain ⟨s, hs⟩ := hI.complete r o hx h.2
          refine ⟨_, List.mem_filter.2 ⟨hs, (hwant _ hs).2 ⟨_, s, rfl, h.1.1.1⟩⟩, ?_⟩
          simp only [f, wantRrset, beq_self_eq_true, Bool.true_and, Bool.and_eq_true]
          exact ⟨⟨h.1.1.2, h.1.2⟩, h.2⟩
        · rintro ⟨y, hy, hf⟩
          obtain ⟨h1, h2⟩ := List.mem_filter.1 hy
          obtain ⟨n, s, rfl, h3⟩ := (hwant y h1).1 h2
          simp only [f, wantRrset, Bool.and_eq_true, beq_iff_eq] at hf
          simp only [wantRrset, Bool.and_eq_true]
          obtain ⟨⟨⟨rfl, h4⟩, h5⟩, h6⟩ := hf
          exact ⟨⟨⟨h3, h4⟩, h5⟩, h6⟩
      | _ =>
        simp only [wantRrset, Bool.false_eq_true, false_iff]
        rintro ⟨y, hy, hf⟩
        cases y <;> simp [f, wantRrset] at hf
  refine fun S hO hL => ⟨_, hinit, fun ls w hw hl => ?_⟩
  rw [← hsort]
  refine (offered_indirect hS hX hO hL (p := P) (tb := 0) (E := fun x => Ts.filter (f x)) rfl
    (keyOnly_append (keyOnly_rrtypeIf _) (keyOnly_bailiwickIf _)) ?_ ?_ ls hl hw).1
  · apply GoodSeq.of_all
    intro g hg
    simp only [P, singleLabelIf, filtIf] at hg
    split at hg
    · rw [List.mem_singleton] at hg
      subst hg
      apply good_singleLabel (by decide)
      intro kv hkv
      obtain ⟨x, hx, rfl, hv⟩ := rowsIn_rec hkv
      obtain ⟨n, s, rfl⟩ := pfx_fwd hv
      have hr := (hX.legal _ hx).1.1
      exact ⟨_, hnk hr ((hpfx hr).1 ((inView_pfx _ _).1 hv))⟩
    · simp at hg
  · intro x hx hv _
    obtain ⟨n, s, rfl⟩ := pfx_fwd hv
    obtain ⟨hnl, hsw⟩ := hX.legal _ hx
    have hk : (fwdIndexKey n).drop 1 = wire n := rfl
    obtain ⟨o, h1, h2, h3⟩ := indirectKey_entry ha (kind := .rrset) (nm := wire (front ++ [[c]]))
      (tb := 0) (.inl rfl) hnl.1 hk hsw (fun t y ht hy => hr t n y ht (hy ▸ hx))
    refine ⟨o, h1, fun ho => ?_, fun k hk => ?_⟩
    · obtain ⟨t, ht, y, rfl, hy⟩ := h2 ho
      rw [List.filter_eq_nil_iff]
      intro z hz hfz
      cases z with
      | rrset r ob =>
        simp only [f, wantRrset, ht, Bool.and_eq_true, beq_iff_eq, Option.all_some] at hfz
        obtain ⟨⟨⟨rfl, rfl⟩, -⟩, hb⟩ := hfz
        have := hI.types r ob y hz hb hx
        rw [this] at hy; cases hy
      | _ => simp [f, wantRrset] at hfz
    · have hk' := h3 k hk
      have hkeys : ∀ kv ∈ rowsIn (rowsOf Ts) (.pfx k), ∃ r : RRset, r.legal ∧ kv.1 = r.key := by
        intro kv hkv
        obtain ⟨x, hx, rfl, hv⟩ := rowsIn_rec hkv
        rw [hk'] at hv
        obtain ⟨r, o, rfl⟩ := pfx_rrset hv
        exact ⟨r, (hS.legal _ hx).1, rfl⟩
      refine ⟨GoodSeq.of_all (typeBailiwick_good hkeys), fun y _ hy => ?_, ?_⟩
      · rw [hk'] at hy
        obtain ⟨r, o, rfl⟩ := pfx_rrset hy; rfl
      · apply List.filter_congr
        intro y hy
        have hyl := hS.legal y hy
        rw [hk']
        apply eq_of_not_rrset (want := f (.fwd n s))
        · intro h
          cases y with
          | rrset r o => exact absurd rfl (h r o)
          | _ => rfl
        · rintro r ob rfl
          have hrl := hyl.1
          rw [timePass_row hyl.2 rfl, Rec.row, show (Rec.rrset r ob).key = r.key from rfl,
            typeBailiwick_passes ha hrl]
          simp only [f, wantRrset]
          rw [← Bool.and_assoc, ← Bool.and_assoc]
          congr 2
          have hv : inView (.pfx (0 :: (wire n.reverse ++ lookupType 0 a.ty))) r.key =
              (r.owner == n && a.ty.all (· == r.rrtype)) := by
            rw [Bool.eq_iff_iff, inView_pfx, rrset_pfx hnl.1 hrl, Bool.and_eq_true, beq_iff_eq]
            refine and_congr Iff.rfl ?_
            unfold lookupType
            cases a.ty with
            | none => simp
            | some t =>
              simp only [true_or, if_true, Option.all_some, beq_iff_eq]
              have := leb_append_prefix t r.rrtype [] (wire r.bailiwick.reverse ++ rdataArray r.rdatas)
              rw [List.append_nil] at this
              rw [this]; simp
          rw [hv]
          cases a.ty.all (· == r.rrtype) <;> simp

/-- C20: a query for `front.*` (or `front.+`) delivers exactly the RRsets whose owner starts with the
labels of `front` (and has exactly one more), each once, restricted by type, bailiwick and times, over
every table whose forward index is as documented.  They come in the order of their owner names, those of one owner
in the order of the table.  For queries with a type, the index must have no type set whose last bitmap ends right before that type's byte
(`hr`): there the code reads too far, see `C20_overread_counterexample`. -/
theorem C20_right_wildcard_partial {Ts : List Rec} (hS : Stored Ts) (hI : FwdIndexed Ts) {c : UInt8}
    (hc : c = 42 ∨ c = 43) {front : Name} (hn : legalName (front ++ [[c]])) (hw : ¬ startsWild (front ++ [[c]]))
    {a : Ask} (ha : a.legal)
    (hr : ∀ t n s, a.ty = some t → Rec.fwd n (some s) ∈ Ts → ¬ endsBefore t s) :
    Delivers Ts (a.query .rrset (wire (front ++ [[c]])))
      (sortedBy ownerText (Ts.filter (wantRrset (rightWild c front) a.ty a.bw a.times))) :=
  fun sf => rrset_right_from hS hS hc hn hw (hI.lists a.times) ha hr _ (offers_plain hS _ sf) (lists_plain hS _ sf)

/-- C20 for queries without a type, where no type set is consulted. -/
theorem C20_right_wildcard_any {Ts : List Rec} (hS : Stored Ts) (hI : FwdIndexed Ts) {c : UInt8}
    (hc : c = 42 ∨ c = 43) {front : Name} (hn : legalName (front ++ [[c]])) (hw : ¬ startsWild (front ++ [[c]]))
    {a : Ask} (ha : a.legal) (hty : a.ty = none) :
    Delivers Ts (a.query .rrset (wire (front ++ [[c]])))
      (sortedBy ownerText (Ts.filter (wantRrset (rightWild c front) none a.bw a.times))) := by
  have := C20_right_wildcard_partial hS hI hc hn hw ha (by simp [hty])
  rwa [hty] at this

/-- `www.com` and `www.com.a` with their index entries (types A, NS and SOA; no type set). -/
def exIndexed : List Rec :=
  [.rrset ⟨[[119, 119, 119], [99, 111, 109], [97]], 1, [], [[1, 2, 3, 4]]⟩ ⟨5, 9, 1⟩,
   .rrset ⟨exWww, 1, exCom, [[9, 9, 9, 9]]⟩ ⟨6, 9, 3⟩,
   .rrset ⟨exWww, 6, exCom, [[0]]⟩ ⟨6, 9, 3⟩,
   .fwd exWww (some (.bitmap [⟨0, [0x62]⟩])),
   .fwd [[119, 119, 119], [99, 111, 109], [97]] none]

theorem exIndexed_stored : Stored exIndexed := by
  refine ⟨?_, by decide +kernel⟩
  intro x hx
  simp only [exIndexed, List.mem_cons, List.not_mem_nil, or_false] at hx
  rcases hx with rfl | rfl | rfl | rfl | rfl
  · simp only [Rec.legal]; decide +kernel
  · simp only [Rec.legal]; decide +kernel
  · simp only [Rec.legal]; decide +kernel
  · refine ⟨by decide +kernel, fun t ht => ?_⟩
    rw [← Option.some.inj ht]; decide
  · exact ⟨by decide +kernel, by simp⟩

theorem exIndexed_fwd : FwdIndexed exIndexed := by
  refine ⟨?_, ?_, by decide +kernel⟩
  · intro r o h
    simp only [exIndexed, List.mem_cons, List.not_mem_nil, or_false, Rec.rrset.injEq, reduceCtorEq] at h
    rcases h with ⟨rfl, -⟩ | ⟨rfl, -⟩ | ⟨rfl, -⟩
    · exact ⟨none, by simp [exIndexed]⟩
    · exact ⟨some (.bitmap [⟨0, [0x62]⟩]), by simp [exIndexed]⟩
    · exact ⟨some (.bitmap [⟨0, [0x62]⟩]), by simp [exIndexed]⟩
  · intro r o s h hs
    simp only [exIndexed, List.mem_cons, List.not_mem_nil, or_false, Rec.rrset.injEq, reduceCtorEq] at h
    simp only [exIndexed, List.mem_cons, List.not_mem_nil, or_false, false_or, Rec.fwd.injEq, Option.some.injEq,
      reduceCtorEq, and_false] at hs
    rw [hs.2]
    rcases h with ⟨rfl, -⟩ | ⟨rfl, -⟩ | ⟨rfl, -⟩ <;> decide +kernel

/-- `www.+` for type SOA finds that of `www.com`; `www.*` for type A finds that of `www.com` before that of `www.com.a`,
although the table has them in the other order. -/
example : Delivers exIndexed (Ask.query { ty := some 6 } .rrset (wire [[119, 119, 119], [43]]))
      [.rrset ⟨exWww, 6, exCom, [[0]]⟩ ⟨6, 9, 3⟩]
    ∧ Delivers exIndexed (Ask.query { ty := some 1 } .rrset (wire [[119, 119, 119], [42]]))
      [.rrset ⟨exWww, 1, exCom, [[9, 9, 9, 9]]⟩ ⟨6, 9, 3⟩,
       .rrset ⟨[[119, 119, 119], [99, 111, 109], [97]], 1, [], [[1, 2, 3, 4]]⟩ ⟨5, 9, 1⟩] := by
  have hb : ∀ t, t / 8 ≠ 1 → t < 256 → ∀ n s, Rec.fwd n (some s) ∈ exIndexed → ¬ endsBefore t s := by
    intro t ht ht2 n s hs
    simp only [exIndexed, List.mem_cons, List.not_mem_nil, or_false, false_or, Rec.fwd.injEq, Option.some.injEq,
      reduceCtorEq, and_false] at hs
    rw [hs.2]
    rintro ⟨bl, b, h, h2, h3⟩
    have hb : b = ⟨0, [0x62]⟩ := by
      cases bl with
      | nil => simpa using h.symm
      | cons _ _ => simp at h
    rw [hb] at h3
    simp at h3; omega
  have hw : ∀ c, ¬ startsWild [[119, 119, 119], [c]] := by
    rintro c ⟨d, m, h, -⟩; simp at h
  constructor
  · have h := C20_right_wildcard_partial exIndexed_stored exIndexed_fwd (c := 43) (.inr rfl)
      (front := [[119, 119, 119]]) (by decide) (hw _) (a := { ty := some 6 }) ⟨by simp, by simp⟩
      (by intro t n s ht; rw [← Option.some.inj ht]; exact hb 6 (by decide) (by decide) n s)
    have e : sortedBy ownerText (exIndexed.filter (wantRrset (rightWild 43 [[119, 119, 119]]) (some 6) none {})) =
      [.rrset ⟨exWww, 6, exCom, [[0]]⟩ ⟨6, 9, 3⟩] := by decide +kernel
    rw [← e]; exact h
  · have h := C20_right_wildcard_partial exIndexed_stored exIndexed_fwd (c := 42) (.inl rfl)
      (front := [[119, 119, 119]]) (by decide) (hw _) (a := { ty := some 1 }) ⟨by simp, by simp⟩
      (by intro t n s ht; rw [← Option.some.inj ht]; exact hb 1 (by decide) (by decide) n s)
    have e : sortedBy ownerText (exIndexed.filter (wantRrset (rightWild 42 [[119, 119, 119]]) (some 1) none {})) =
      [.rrset ⟨exWww, 1, exCom, [[9, 9, 9, 9]]⟩ ⟨6, 9, 3⟩,
       .rrset ⟨[[119, 119, 119], [99, 111, 109], [97]], 1, [], [[1, 2, 3, 4]]⟩ ⟨5, 9, 1⟩] :=
      sortedBy_eq (by decide +kernel) (by decide +kernel)
    rw [← e]; exact h

/-- C20 fails for a type right behind the end of an index entry's bitmap: looking for PTR (12) at
`www.*` reads past the end of the index value. -/
theorem C20_overread_counterexample :
    Stored exIndexed ∧ FwdIndexed exIndexed ∧
      ∀ E, ¬ Delivers exIndexed (Ask.query { ty := some 12 } .rrset (wire [[119, 119, 119], [42]])) E := by
  refine ⟨exIndexed_stored, exIndexed_fwd, fun E h => ?_⟩
  have h1 := h.first (p := _) rfl rfl
  have h2 : ∀ p, initKind (Ask.query { ty := some 12 } .rrset (wire [[119, 119, 119], [42]])) = .ok p →
      (queryNext (Ask.query { ty := some 12 } .rrset (wire [[119, 119, 119], [42]]))
        (openQuery exIndexed (Ask.query { ty := some 12 } .rrset (wire [[119, 119, 119], [42]])) p)
        (openQuery exIndexed (Ask.query { ty := some 12 } .rrset (wire [[119, 119, 119], [42]])) p).start
        (idleWorld 0)).1 = .fault .oobRead := by
    intro p hp
    have := Out.ok.inj hp
    subst this
    decide +kernel
  have h3 := h2 _ rfl
  rw [show (Ask.query { ty := some 12 } .rrset (wire [[119, 119, 119], [42]])).offset = 0 from rfl] at h1
  rw [h3] at h1
  split at h1 <;> cases h1

end Verif.Props
