import Verif.Props.LiveExact
import Verif.Props.Rdata

/-!
# C67: which records an open iterator for record data returns while its query changes
-/

namespace Verif
open Spec

theorem liveRr_not {want : RR → Bool} {a : Ask} {q : Query} {x : Rec} (h : ∀ r o, x ≠ .rr r o) : liveRr want a q x = false := by
  cases x with
  | rr r o => exact absurd rfl (h r o)
  | _ => rfl

theorem inView_dataText (d : Bytes) (r : RR) : inView (.pfx (2 :: d)) r.key = d.isPrefixOf (dataText r) := by
  rw [Bool.eq_iff_iff, inView_pfx, RR.key, List.cons_prefix_cons, List.isPrefixOf_iff_prefix, dataText]
  simp

theorem liveFilter_raw (a : Ask) (d : Bytes) (n : Nat) (f : KV → Verdict) (q : Query) :
    liveFilter { a.query .rdataRaw [] with rdata := some d, lenRdata := d.length } n (.filterRrtype, f) q = filterRrtype q.rrtype := by
  simp [liveFilter, Ask.query]

theorem liveFilter_name (a : Ask) (nm : Bytes) (n : Nat) (q : Query) :
    liveFilter (a.query .rdataName nm) n (rdataNameFilter (a.query .rdataName nm)) q =
      if a.ty.isSome then filterRrtype q.rrtype else filterRrtypeRdataName := by
  unfold rdataNameFilter liveFilter
  cases h : a.ty <;> simp [Ask.query, h]

theorem live_name_passes {a : Ask} {nm : Bytes} {n : Nat} {r : RR} (hr : r.legal) (q : Query) (v : Bytes) :
    passes (liveFilter (a.query .rdataName nm) n (rdataNameFilter (a.query .rdataName nm)) q) (r.key, v) =
      ((a.ty.isSome || nameTypes.contains r.rrtype) && (a.ty.isNone || q.rrtype == r.rrtype)) := by
  rw [liveFilter_name]
  cases a.ty with
  | none => simpa [passes_rdataName_rr hr] using nameTypes_contains r.rrtype
  | some t => simp [passes_rrtype_rr hr]

theorem live_name_good {a : Ask} {nm : Bytes} {n : Nat} {T : Table} (h : ∀ kv ∈ T, ∃ r : RR, r.legal ∧ kv.1 = r.key) (q : Query) :
    Good (liveFilter (a.query .rdataName nm) n (rdataNameFilter (a.query .rdataName nm)) q)
      (passes (liveFilter (a.query .rdataName nm) n (rdataNameFilter (a.query .rdataName nm)) q)) T := by
  rw [liveFilter_name]
  split
  · exact good_rrtype _ fun kv hkv => .inr (h kv hkv)
  · exact good_rdataName h

namespace Props

/-- C67: an iterator for raw data, over any table of records: each call passes over the records beginning with the data of the opening
that do not have the present type and times, as far as the query had such criteria when the iterator was opened, and returns the
first that does. -/
theorem C67_raw (A : Arith) (T : Libs) {Ts : List Rec} (hS : Stored Ts) (sf : View → Bytes → Bool) (d : Bytes) {a : Ask}
    (ho : a.offset = 0) :
    ∃ p, initKind { a.query .rdataRaw [] with rdata := some d, lenRdata := d.length } = .ok p ∧ ∀ (os : List LiveOp) (w : World),
      let q0 : Query := { a.query .rdataRaw [] with rdata := some d, lenRdata := d.length }
      let L := liveAssemble q0 (plainSources (curM (rowsOf Ts) sf)) p
      let cs := liveRun A T q0 L os q0 (L.at q0).start w
      (a.lim.active = true → ∀ c ∈ cs, c.query.lim.active = true) →
      LiveReturns a.lim.active (fun x => some x.entry) (liveRr (fun r => d.isPrefixOf (dataText r)) a) Ts cs := by
  let q0 : Query := { a.query .rdataRaw [] with rdata := some d, lenRdata := d.length }
  have hinit : initKind q0 = .ok { onSource := rrtypeIf (a.query .rdataRaw []), view := .pfx (2 :: d) } := by
    simp only [q0, initKind, Ask.query, initRdataRaw, rdataBytes, Nat.le_refl, if_true, List.take_length, Out.ok_bind]
    rfl
  refine ⟨_, hinit, fun os w hl => ?_⟩
  refine live_direct hS sf (q0 := q0) (p := { onSource := rrtypeIf (a.query .rdataRaw []), view := .pfx (2 :: d) })
    (want := liveRr (fun r => d.isPrefixOf (dataText r)) a) rfl ho ?_
    (fun x _ h => by obtain ⟨r, o, rfl⟩ := pfx_rr h; rfl) ?_ os w hl
  · intro f hf q
    rw [Ask.rrtypeIf_eq] at hf
    cases hty : a.ty with
    | none => simp [hty] at hf
    | some t =>
      simp only [hty, List.mem_singleton] at hf
      subst hf
      rw [liveFilter_raw]
      exact good_rrtype _ fun kv hkv => .inr (rowsIn_rr hS kv hkv)
  · intro x hx q
    have hxl := hS.legal x hx
    refine eq_of_not_rr liveRr_not ?_
    rintro r o rfl
    rw [liveTimePass_row hxl.2 rfl, Rec.row, show (Rec.rr r o).key = r.key from rfl, Ask.rrtypeIf_eq, ← Bool.and_assoc,
      inView_dataText]
    simp only [liveRr]
    congr 2
    cases a.ty with
    | none => rfl
    | some t => simp [q0, liveFilter_raw, passes_rrtype_rr hxl.1]

/-- C67: the same for an iterator for a name in record data.  The key also holds the type of the opening if data of that type are
nothing but a name; without a type then, only types with names are returned. -/
theorem C67_exact_name (A : Arith) (T : Libs) {Ts : List Rec} (hS : Stored Ts) (sf : View → Bytes → Bool) {n : Name}
    (hn : legalName n) (hp : PlainName n) {a : Ask} (ha : a.legal) (ho : a.offset = 0) :
    ∃ p, initKind (a.query .rdataName (wire n)) = .ok p ∧ ∀ (os : List LiveOp) (w : World),
      let q0 := a.query .rdataName (wire n)
      let L := liveAssemble q0 (plainSources (curM (rowsOf Ts) sf)) p
      let cs := liveRun A T q0 L os q0 (L.at q0).start w
      (a.lim.active = true → ∀ c ∈ cs, c.query.lim.active = true) →
      LiveReturns a.lim.active (fun x => some x.entry)
        (liveRr (fun r => (wire n ++ (a.ty.filter bareNameTypes.contains).elim [] leb).isPrefixOf (dataText r) &&
          (a.ty.isSome || nameTypes.contains r.rrtype)) a) Ts cs := by
  have hL : isLeftWildcard (wire n) = none := isLeftWildcard_plain hn.1 hp.1
  have hR : isRightWildcard (wire n) = none := isRightWildcard_plain hn.1 hp.2.1 hp.2.2
  let s : Bytes := (a.ty.filter bareNameTypes.contains).elim [] leb
  have hinit : initKind (a.query .rdataName (wire n)) =
      .ok { onSource := [rdataNameFilter (a.query .rdataName (wire n))], view := .pfx (2 :: (wire n ++ s)) } := by
    have e : initKind (a.query .rdataName (wire n)) = initRdataExact (a.query .rdataName (wire n)) := by
      simp only [initKind, Ask.query, initRdataName, hL, hR]
    rw [e, initRdataExact]
    have hname : (a.query .rdataName (wire n)).name = wire n := rfl
    cases ht : a.ty with
    | none =>
      have hd : (a.query .rdataName (wire n)).doRrtype = false := by simp [Ask.query, ht]
      simp [hd, hname, s, ht]
    | some t =>
      have hd : (a.query .rdataName (wire n)).doRrtype = true := by simp [Ask.query, ht]
      have hrt : (a.query .rdataName (wire n)).rrtype = t := by simp [Ask.query, ht]
      obtain ⟨ht1, ht2⟩ := ha.1 t ht
      by_cases hb : t ∈ bareNameTypes
      · rw [if_pos ⟨hd, by rw [hrt, bareNameTypes_contains]; simpa using hb⟩, hrt, addRrtype_leb _ ht1 ht2]
        simp [s, ht, Option.filter, hb, hname]
      · rw [if_neg (by rw [hrt, bareNameTypes_contains]; simpa using fun _ => hb)]
        simp [hname, s, ht, Option.filter, hb]
  refine ⟨_, hinit, fun os w hl => ?_⟩
  refine live_direct hS sf (q0 := a.query .rdataName (wire n))
    (p := { onSource := [rdataNameFilter (a.query .rdataName (wire n))], view := .pfx (2 :: (wire n ++ s)) })
    (want := liveRr (fun r => (wire n ++ s).isPrefixOf (dataText r) && (a.ty.isSome || nameTypes.contains r.rrtype)) a) rfl ho ?_
    (fun x _ h => by obtain ⟨r, o, rfl⟩ := pfx_rr h; rfl) ?_ os w hl
  · intro f hf q
    rw [List.mem_singleton] at hf
    subst hf
    exact live_name_good (rowsIn_rr hS) q
  · intro x hx q
    have hxl := hS.legal x hx
    refine eq_of_not_rr liveRr_not ?_
    rintro r o rfl
    rw [liveTimePass_row hxl.2 rfl, Rec.row, show (Rec.rr r o).key = r.key from rfl, ← Bool.and_assoc, inView_dataText]
    simp only [List.all_cons, List.all_nil, Bool.and_true]
    rw [live_name_passes hxl.1]
    simp [liveRr, Bool.and_assoc, Ask.query]

/-- C67: the same for an iterator for `front.*` or `front.+` in record data.  `hN`: the records whose data start with
the labels of `front` have data that start with a name. -/
theorem C67_right_name (A : Arith) (T : Libs) {Ts : List Rec} (hS : Stored Ts) (sf : View → Bytes → Bool) {c : UInt8}
    (hc : c = 42 ∨ c = 43) {front : Name} (hn : legalName (front ++ [[c]])) {a : Ask} (ho : a.offset = 0) {target : RR → Option Name}
    (hN : ∀ r o, Rec.rr r o ∈ Ts → flat front <+: dataText r →
      ∃ m rest, target r = some m ∧ legalLabels m ∧ r.tail = wire m ++ rest) :
    ∃ p, initKind (a.query .rdataName (wire (front ++ [[c]]))) = .ok p ∧ ∀ (os : List LiveOp) (w : World),
      let q0 := a.query .rdataName (wire (front ++ [[c]]))
      let L := liveAssemble q0 (plainSources (curM (rowsOf Ts) sf)) p
      let cs := liveRun A T q0 L os q0 (L.at q0).start w
      (a.lim.active = true → ∀ c ∈ cs, c.query.lim.active = true) →
      LiveReturns a.lim.active (fun x => some x.entry)
        (liveRr (fun r => (flat front).isPrefixOf (dataText r) && (target r).any (rightWild c front) &&
          (a.ty.isSome || nameTypes.contains r.rrtype)) a) Ts cs := by
  have hf : legalLabels front := (legalLabels_append.1 hn.1).1
  have hR := isRightWildcard_wild front hc
  have htake : (wire (front ++ [[c]])).take ((wire (front ++ [[c]])).length - 3) = flat front := by
    have hw : wire (front ++ [[c]]) = flat front ++ [1, c, 0] := by simp [wire_append, wire_cons]
    rw [hw]; simp
  have hinit : initKind (a.query .rdataName (wire (front ++ [[c]]))) =
      .ok { onSource := rdataNameFilter (a.query .rdataName (wire (front ++ [[c]]))) ::
              singleLabelIf (c == 43) (2 :: flat front), view := .pfx (2 :: flat front) } := by
    simp only [initKind, Ask.query, initRdataName, hR, initRdataRight, htake]
  have hnk : ∀ {r : RR} {o : Obs}, Rec.rr r o ∈ Ts → flat front <+: dataText r →
      ∃ m, target r = some m ∧ front <+: m ∧ NameKey 2 front r.key m := by
    intro r o hr h
    obtain ⟨m, rest, h1, h2, h3⟩ := hN r o hr h
    have hd : dataText r = wire m ++ (rest ++ (leb r.rrtype ++ (wire r.owner.reverse ++ (r.lead ++ word16 r.tail.length)))) := by
      simp [dataText, h3]
    have hpm : front <+: m := by
      rw [hd] at h
      exact (flat_prefix_iff hf h2 _).1 h
    exact ⟨m, h1, hpm, h2, hpm, _, by rw [show r.key = 2 :: dataText r by simp [RR.key, dataText], hd]⟩
  have hsingle : ∀ (n : Nat) (q : Query), ∀ f ∈ singleLabelIf (c == 43) (2 :: flat front),
      liveFilter (a.query .rdataName (wire (front ++ [[c]]))) n f q = f.2 := by
    intro n q f hf
    unfold singleLabelIf filtIf at hf
    split at hf
    · simp only [List.mem_singleton] at hf; subst hf; rfl
    · cases hf
  refine ⟨_, hinit, fun os w hl => ?_⟩
  refine live_direct hS sf (q0 := a.query .rdataName (wire (front ++ [[c]])))
    (p := { onSource := rdataNameFilter (a.query .rdataName (wire (front ++ [[c]]))) ::
              singleLabelIf (c == 43) (2 :: flat front), view := .pfx (2 :: flat front) })
    (want := liveRr (fun r => (flat front).isPrefixOf (dataText r) && (target r).any (rightWild c front) &&
      (a.ty.isSome || nameTypes.contains r.rrtype)) a) rfl ho ?_
    (fun x _ h => by obtain ⟨r, o, rfl⟩ := pfx_rr h; rfl) ?_ os w hl
  · intro f hf q
    rcases List.mem_cons.1 hf with rfl | hf
    · exact live_name_good (rowsIn_rr hS) q
    · rw [hsingle _ q f hf]
      rw [singleLabelIf, filtIf] at hf
      split at hf
      · rw [List.mem_singleton] at hf
        subst hf
        apply good_singleLabel (by decide)
        intro kv hkv
        obtain ⟨x, hx, rfl, hv⟩ := rowsIn_rec hkv
        obtain ⟨r, o, rfl⟩ := pfx_rr hv
        rw [show (Rec.rr r o).key = r.key from rfl, inView_dataText, List.isPrefixOf_iff_prefix] at hv
        obtain ⟨m, -, -, h⟩ := hnk hx hv
        exact ⟨m, h⟩
      · simp at hf
  · intro x hx q
    have hxl := hS.legal x hx
    refine eq_of_not_rr liveRr_not ?_
    rintro r o rfl
    rw [liveTimePass_row hxl.2 rfl, Rec.row, show (Rec.rr r o).key = r.key from rfl, ← Bool.and_assoc, inView_dataText,
      List.all_cons, live_name_passes hxl.1]
    have hs : (singleLabelIf (c == 43) (2 :: flat front)).all (fun f =>
          passes (liveFilter (a.query .rdataName (wire (front ++ [[c]]))) (View.pfx (2 :: flat front)).lo.length f q)
            (r.key, (Rec.rr r o).value)) =
        (singleLabelIf (c == 43) (2 :: flat front)).all (fun f => passes f.2 (r.key, (Rec.rr r o).value)) := by
      rw [Bool.eq_iff_iff, List.all_eq_true, List.all_eq_true]
      refine forall_congr' fun f => forall_congr' fun hf => ?_
      rw [hsingle _ q f hf]
    rw [hs]
    simp only [liveRr]
    rw [show (a.query .rdataName (wire (front ++ [[c]]))).bounds = a.times from rfl]
    congr 1
    cases hd : (flat front).isPrefixOf (dataText r) with
    | false => simp
    | true =>
      obtain ⟨m, h1, h2, h3⟩ := hnk hx (List.isPrefixOf_iff_prefix.1 hd)
      have : (target r).any (rightWild c front) =
          (singleLabelIf (c == 43) (2 :: flat front)).all (fun f => passes f.2 (r.key, (Rec.rr r o).value)) := by
        rw [h1, Option.any_some, Bool.eq_iff_iff]
        unfold rightWild singleLabelIf filtIf
        rcases hc with rfl | rfl
        · simpa using h2
        · simp only [if_true, Bool.and_eq_true, beq_iff_eq, beq_self_eq_true, List.isPrefixOf_iff_prefix,
            List.all_cons, List.all_nil, Bool.and_true]
          constructor
          · rintro ⟨h, -⟩
            exact (singleLabel_passes (by decide) h3).2 ((singleLabel_lengths h2).2 h)
          · intro h
            exact ⟨(singleLabel_lengths h2).1 ((singleLabel_passes (by decide) h3).1 h), h2⟩
      rw [this]
      cases (singleLabelIf (c == 43) (2 :: flat front)).all (fun f => passes f.2 (r.key, (Rec.rr r o).value)) <;> simp

/-- `exSeen` with the plan of the query, over records. -/
def exSeenData (q : Query) (os : List LiveOp) : List (Option (Nat × Nat)) :=
  match initKind q with
  | .ok p => exSeen q p (rowsOf exRdata) os
  | _ => []

/-- Hypotheses and effect on six records.  Of an iterator for the raw data `01 61`, opened with the type NS, the second call obeys a type
set in between.  Of an iterator for `a.com`, opened with the type SOA, so does the first.  Of an iterator for `com.*` opened without a type, a type set later is not obeyed. -/
example : Stored exRdata ∧ legalName [[97], [99, 111, 109]] ∧ PlainName [[97], [99, 111, 109]] ∧ legalName (exCom ++ [[42]]) ∧
    (∀ r o, Rec.rr r o ∈ exRdata → flat exCom <+: dataText r →
      ∃ m rest, exTarget r = some m ∧ legalLabels m ∧ r.tail = wire m ++ rest) ∧
    (let q : Query := { Ask.query { ty := some 2 } .rdataRaw [] with rdata := some [1, 97], lenRdata := 2 }
     exSeenData q [.next, .next] = [some (2, 9), none] ∧
     exSeenData q [.next, .set (.rrtype (some (lit "A"))), .next] = [some (2, 9), some (1, 9)]) ∧
    (let q := Ask.query { ty := some 6 } .rdataName (wire [[97], [99, 111, 109]])
     exSeenData q [.next] = [some (6, 9)] ∧ exSeenData q [.set (.rrtype (some (lit "MX"))), .next] = [none]) ∧
    (exSeenData (Ask.query {} .rdataName (wire (exCom ++ [[42]]))) [.set (.rrtype (some (lit "A"))), .next, .next] =
      [some (2, 9), none]) := by
  refine ⟨exRdata_stored, by decide, plain_a, by decide, ?_, ⟨by decide +kernel, by decide +kernel⟩,
    ⟨by decide +kernel, by decide +kernel⟩, by decide +kernel⟩
  intro r o h hp
  simp only [exRdata, List.mem_cons, List.not_mem_nil, or_false, Rec.rr.injEq, reduceCtorEq] at h
  rcases h with ⟨rfl, -⟩ | ⟨rfl, -⟩ | ⟨rfl, -⟩ | ⟨rfl, -⟩
  · exact absurd hp (by decide +kernel)
  · exact absurd hp (by decide +kernel)
  · exact absurd hp (by decide +kernel)
  · exact ⟨exCom, [], by decide +kernel, by decide, by decide +kernel⟩

end Props
end Verif
