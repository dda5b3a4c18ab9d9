import Verif.Lemmas.Unaggregated
import Verif.Props.Fileset

/-! # C50: unaggregated queries over file sets -/

namespace Verif.Props

open Verif Verif.Spec

section
variable {ws : List Nat} {files : List Src} {recs : Src → List Rec}

private theorem loose_open {q : Query} {env : FsEnv} {w w' : World} {F : Loose}
    (h : looseFiles q.bounds env w w' files = .ok F) :
    openFileset { q with aggregated := false } env w w' files = .ok (.loose F) := by
  simp only [openFileset, Bool.false_eq_true, if_false, h, Out.ok_bind]

private theorem loose (hU : LooseFiles ws files recs) {q : Query} {want : Rec → Bool} (hw : Bounded q.bounds want)
    (h : ∀ Vs S, Stored Vs → Vs ⊆ files.flatMap recs → Offers Vs q S → DeliversFrom S q (Vs.filter want)) :
    LooseDeliver files q ((files.flatMap recs).filter want) := by
  intro env w w'
  obtain ⟨Xs, Vs, K, L, R, K', L', R', h1, -, -, -, -, hG, hS, hp, ho⟩ := loose_total hU q.bounds env w w'
  refine ⟨_, loose_open h1, Vs.filter want, (hp.filter want).trans (kept_filter hU.file hG hw), ho.filter _,
    delivers_aggregated false (h Vs _ hS ?_ ?_)⟩
  · intro x hx
    obtain ⟨f, hf, hx⟩ := List.mem_flatMap.1 (hp.mem_iff.1 hx)
    exact List.mem_flatMap.2 ⟨f, hG.perm.mem_iff.2 (by simp [hf]), hx⟩
  · exact fun _ _ _ hG hT => stored_core hS env.seekKept _ hG fun _ => hT

private theorem bounded_rrset (owner : Name → Bool) (ty : Option Nat) (bw : Option Name) (b : Bounds) :
    Bounded b (wantRrset owner ty bw b) := by
  intro x hx
  cases x <;> simp [wantRrset] at hx
  exact ⟨_, rfl, hx.2⟩

private theorem bounded_rr (want : RR → Bool) (ty : Option Nat) (b : Bounds) : Bounded b (wantRr want ty b) := by
  intro x hx
  cases x <;> simp [wantRr] at hx
  exact ⟨_, rfl, hx.2⟩

/-- C50, RRsets of a name: the query delivers every record of every file that is asked for and whose own times are
within the bounds, as often as it occurs, with its own times and count, ordered by key and within a key by times;
files left out because of their time range have none. -/
theorem C50_rrset (hU : LooseFiles ws files recs) {n : Name} (hn : legalName n) (hp : PlainName n) {a : Ask} (ha : a.legal) :
    LooseDeliver files (a.query .rrset (wire n))
      ((files.flatMap recs).filter (wantRrset (· == n) a.ty a.bw a.times)) :=
  loose hU (bounded_rrset _ _ _ _) fun _ _ hS _ hO => rrset_exact_from hS hO hn hp ha

/-- C50, RRsets of `*.dom` or `+.dom`. -/
theorem C50_rrset_left (hU : LooseFiles ws files recs) {c : UInt8} (hc : c = 42 ∨ c = 43) {dom : Name}
    (hn : legalName ([c] :: dom)) {a : Ask} (ha : a.legal) :
    LooseDeliver files (a.query .rrset (wire ([c] :: dom)))
      ((files.flatMap recs).filter (wantRrset (leftWild c dom) a.ty a.bw a.times)) :=
  loose hU (bounded_rrset _ _ _ _) fun _ _ hS _ hO => rrset_left_from hS hc hO hn ha

/-- C50, a name in record data; hypotheses as for `C21_exact_name_partial`. -/
theorem C50_rdata_partial (hU : LooseFiles ws files recs) {n : Name} (hn : legalName n) (hp : PlainName n) {a : Ask}
    (ha : a.legal) (hty : ∀ t, a.ty = some t → t ∈ nameTypes) {target : RR → Option Name}
    (hT : Targets target (files.flatMap recs))
    (hB : ∀ t, a.ty = some t → t ∈ bareNameTypes → Bare target t (files.flatMap recs) n) :
    LooseDeliver files (a.query .rdataName (wire n))
      ((files.flatMap recs).filter (wantRr (namesIn target (· == n)) a.ty a.times)) :=
  loose hU (bounded_rr _ _ _) fun _ _ hS hs hO => rdata_exact_from hS hO hn hp ha hty (fun r o h => hT r o (hs h))
    fun t h1 h2 r o h => hB t h1 h2 r o (hs h)

/-- C50, names `front.*` or `front.+` in record data; hypotheses as for `C21_right_wildcard`. -/
theorem C50_rdata_right_partial (hU : LooseFiles ws files recs) {c : UInt8} (hc : c = 42 ∨ c = 43) {front : Name} {a : Ask}
    (hn : legalName (front ++ [[c]])) (hty : ∀ t, a.ty = some t → t ∈ nameTypes)
    {target : RR → Option Name} (hT : Targets target (files.flatMap recs))
    (hN : ∀ r o, Rec.rr r o ∈ files.flatMap recs → r.rrtype ∈ nameTypes → target r = none → ¬ flat front <+: r.tail) :
    LooseDeliver files (a.query .rdataName (wire (front ++ [[c]])))
      ((files.flatMap recs).filter (wantRr (namesIn target (rightWild c front)) a.ty a.times)) :=
  loose hU (bounded_rr _ _ _) fun _ _ hS hs hO => rdata_right_from hS hc hO hn hty (fun r o h => hT r o (hs h))
    fun r o h => hN r o (hs h)

/-- C50, raw record data. -/
theorem C50_rdata_raw (hU : LooseFiles ws files recs) (d : Bytes) (a : Ask) :
    LooseDeliver files { a.query .rdataRaw [] with rdata := some d, lenRdata := d.length }
      ((files.flatMap recs).filter (wantRr (fun r => d.isPrefixOf (r.tail ++ leb r.rrtype ++ wire r.owner.reverse ++ r.lead
        ++ word16 r.tail.length)) a.ty a.times)) :=
  loose hU (bounded_rr _ _ _) fun _ _ hS _ hO => rdata_raw_from hS d a hO

/-- C50, ranges of addresses; hypotheses as for `C23_range_partial`. -/
theorem C50_rdata_range_partial (hU : LooseFiles ws files recs) {L t : Nat} (hk : AddrKind L t)
    (hA : AddrRecords L t (files.flatMap recs)) (a : Ask) {lo hi : Bytes} (hlo : lo.length = L) (hhi : hi.length = L)
    (hc : NoneCut L t lo hi (files.flatMap recs)) :
    LooseDeliver files (a.addresses t lo hi) ((files.flatMap recs).filter (wantRr (between lo hi) (some t) a.times)) :=
  loose hU (bounded_rr _ _ _) fun _ _ hS hs hO => rdata_range_from hS hk (fun r o h => hA r o (hs h)) a hO hlo hhi
    fun r o h => hc r o (hs h)

/-- C50, one address; hypotheses as for `C23_address_partial`. -/
theorem C50_rdata_address_partial (hU : LooseFiles ws files recs) {L t : Nat} (hk : AddrKind L t)
    (hA : AddrRecords L t (files.flatMap recs)) (a : Ask) {ip : Bytes} (hip : ip.length = L)
    (hc : NoneCut L t ip ip (files.flatMap recs)) :
    LooseDeliver files (a.addresses t ip []) ((files.flatMap recs).filter (wantRr (fun r => r.tail == ip) (some t) a.times)) :=
  loose hU (bounded_rr _ _ _) fun _ _ hS hs hO => rdata_address_from hS hk (fun r o h => hA r o (hs h)) a hO hip
    fun r o h => hc r o (hs h)

private theorem inKept (hU : LooseFiles ws files recs) {b : Bounds} {K L R K' L' R' : List Src} (hG : Groups b files K L R)
    (hG' : Groups b files K' L' R') {Vs : List Rec} (hp : Vs.Perm (K'.flatMap recs)) : InKept b files K recs Vs := by
  intro x hx o ho hb
  obtain ⟨f, hf, hx⟩ := List.mem_flatMap.1 (hp.mem_iff.1 hx)
  have hm : f ∈ files := hG'.perm.mem_iff.2 (by simp [hf])
  exact ⟨f, in_kept_of_bounds hU.file hG hm hx ho hb, hm, x, hx, rfl⟩

theorem rrset_right_loose (hU : LooseFiles ws files recs) (hI : ∀ f ∈ files, FwdIndexed (recs f)) {c : UInt8}
    (hc : c = 42 ∨ c = 43) {front : Name} (hn : legalName (front ++ [[c]])) (hw : ¬ startsWild (front ++ [[c]]))
    {a : Ask} (ha : a.legal) {env : FsEnv} {w w' : World}
    (hr : ∀ F, looseFiles a.times env w w' files = .ok F →
      ∀ t n s, a.ty = some t → (Rec.fwd n (some s)).legal → (Rec.fwd n (some s)).row ∈ F.index → ¬ endsBefore t s) :
    ∃ O, openFileset { a.query .rrset (wire (front ++ [[c]])) with aggregated := false } env w w' files = .ok O ∧
      ∃ E', E'.Perm ((files.flatMap recs).filter (wantRrset (rightWild c front) a.ty a.bw a.times)) ∧ E'.Pairwise RecLe ∧
        DeliversFrom (O.sources (a.query .rrset (wire (front ++ [[c]]))) env)
          { a.query .rrset (wire (front ++ [[c]])) with aggregated := false } (sortedBy ownerText E') := by
  obtain ⟨Xs, Vs, K, L, R, K', L', R', h1, hG, hX, hSX, hC, hG', hS, hp, ho⟩ := loose_total hU a.times env w w'
  have e1 := rrset_right_from hS hSX hc hn hw
    (fwdLists_kept hU.file hI hG (inKept hU hG hG' hp) hS hX hSX hC) ha
    (fun t n s h3 h4 => hr _ h1 t n s h3 (hSX.legal _ h4) (List.mem_map.2 ⟨_, h4, rfl⟩))
  refine ⟨_, loose_open (q := a.query .rrset (wire (front ++ [[c]]))) h1, _,
    (hp.filter _).trans (kept_filter hU.file hG' (bounded_rrset _ _ _ _)), ho.filter _, delivers_aggregated false (e1 _ ?_ fun V => ?_)⟩
  · exact fun _ _ _ hG hT => stored_core hS env.seekKept _ hG fun _ => hT
  · exact impl_withTimeout (q := a.query .rrset (wire (front ++ [[c]]))) (impl_cur hSX.sorted env.seekIndex V)

/-- C50, RRsets of `front.*` or `front.+`: each record is delivered once although the index of every file may list its
name; they come in the order of their owners, those of one owner in the order of keys and times.  Every file has a documented index; no type set of the merged index is cut off before the type asked for
(`C20_overread_counterexample`). -/
theorem C50_rrset_right_partial (hU : LooseFiles ws files recs) (hI : ∀ f ∈ files, FwdIndexed (recs f)) {c : UInt8}
    (hc : c = 42 ∨ c = 43) {front : Name} (hn : legalName (front ++ [[c]])) (hw : ¬ startsWild (front ++ [[c]]))
    {a : Ask} (ha : a.legal)
    (hr : ∀ env w w' F, looseFiles a.times env w w' files = .ok F →
      ∀ t n s, a.ty = some t → (Rec.fwd n (some s)).row ∈ F.index → ¬ endsBefore t s) :
    LooseDeliverBy ownerText files (a.query .rrset (wire (front ++ [[c]])))
      ((files.flatMap recs).filter (wantRrset (rightWild c front) a.ty a.bw a.times)) :=
  fun env w w' => rrset_right_loose hU hI hc hn hw ha fun F hF t n s e _ => hr env w w' F hF t n s e

/-- C50, RRsets of `front.*` or `front.+` of any type. -/
theorem C50_rrset_right_any (hU : LooseFiles ws files recs) (hI : ∀ f ∈ files, FwdIndexed (recs f)) {c : UInt8}
    (hc : c = 42 ∨ c = 43) {front : Name} (hn : legalName (front ++ [[c]])) (hw : ¬ startsWild (front ++ [[c]]))
    {a : Ask} (ha : a.legal) (hty : a.ty = none) :
    LooseDeliverBy ownerText files (a.query .rrset (wire (front ++ [[c]])))
      ((files.flatMap recs).filter (wantRrset (rightWild c front) a.ty a.bw a.times)) :=
  C50_rrset_right_partial hU hI hc hn hw ha fun _ _ _ _ _ t _ _ h => by rw [hty] at h; cases h

theorem rdata_left_loose (hU : LooseFiles ws files recs) {c : UInt8} (hc : c = 42 ∨ c = 43)
    {dom : Name} (hn : legalName ([c] :: dom)) (hw1 : ¬ endsWild ([c] :: dom)) (hw2 : ¬ endsLikeWild ([c] :: dom))
    {a : Ask} (ha : a.legal) (hty : ∀ t, a.ty = some t → t ∈ nameTypes) {target : RR → Option Name}
    (hT : Targets target (files.flatMap recs)) (hI : ∀ f ∈ files, RevIndexed target a.ty (recs f))
    (hC : ∀ f ∈ files, RevComplete target (fun t => nameTypes.contains t && a.ty.all (· == t)) (recs f))
    {env : FsEnv} {w w' : World}
    (hr : ∀ F, looseFiles a.times env w w' files = .ok F →
      ∀ t n s, a.ty = some t → (Rec.rev n (some s)).legal → (Rec.rev n (some s)).row ∈ F.index → ¬ endsBefore t s)
    (hB : ∀ t, a.ty = some t → t ∈ bareNameTypes → ∀ n, leftWild c dom n = true → Bare target t (files.flatMap recs) n) :
    ∃ O, openFileset { a.query .rdataName (wire ([c] :: dom)) with aggregated := false } env w w' files = .ok O ∧
      ∃ E', E'.Perm ((files.flatMap recs).filter (wantRr (namesIn target (leftWild c dom)) a.ty a.times)) ∧ E'.Pairwise RecLe ∧
        DeliversFrom (O.sources (a.query .rdataName (wire ([c] :: dom))) env)
          { a.query .rdataName (wire ([c] :: dom)) with aggregated := false } (sortedBy (targetText target) E') := by
  obtain ⟨Xs, Vs, K, L, R, K', L', R', h1, hG, hX, hSX, hCov, hG', hS, hp, ho⟩ := loose_total hU a.times env w w'
  have hs : Vs ⊆ files.flatMap recs := by
    intro x hx
    obtain ⟨f, hf, hx⟩ := List.mem_flatMap.1 (hp.mem_iff.1 hx)
    exact List.mem_flatMap.2 ⟨f, hG'.perm.mem_iff.2 (by simp [hf]), hx⟩
  obtain ⟨hR, hlisted⟩ := revLists_kept hty hU.file hI hC hG (inKept hU hG hG' hp) hS hX hSX hCov
  have e1 := rdata_left_from hS hSX hc hn hw1 hw2 ha hty (fun r o h => hT r o (hs h)) hR
    (fun t n s h3 h4 => hr _ h1 t n s h3 (hSX.legal _ h4) (List.mem_map.2 ⟨_, h4, rfl⟩))
    (fun t h2 h3 n h4 r o h => hB t h2 h3 n h4 r o (hs h))
  have e : Vs.filter (wantRr (namesIn target fun m => leftWild c dom m && revListed Xs m) a.ty a.times) =
      Vs.filter (wantRr (namesIn target (leftWild c dom)) a.ty a.times) := by
    apply List.filter_congr
    intro x hx
    cases x with
    | rr r o =>
      simp only [wantRr, namesIn]
      cases h3 : nameTypes.contains r.rrtype with
      | false => simp
      | true =>
        cases h4 : a.ty.all (· == r.rrtype) with
        | false => simp
        | true =>
          cases h5 : inBounds a.times o with
          | false => simp
          | true =>
            cases ht : target r with
            | none => simp
            | some m => simp [hlisted r o m hx h5 h3 h4 ht]
    | _ => rfl
  rw [e] at e1
  refine ⟨_, loose_open (q := a.query .rdataName (wire ([c] :: dom))) h1, _,
    (hp.filter _).trans (kept_filter hU.file hG' (bounded_rr _ _ _)), ho.filter _, delivers_aggregated false (e1 _ ?_ fun V => ?_)⟩
  · exact fun _ _ _ hG hT => stored_core hS env.seekKept _ hG fun _ => hT
  · exact impl_withTimeout (q := a.query .rdataName (wire ([c] :: dom))) (impl_cur hSX.sorted env.seekIndex V)

/-- C50, names `*.dom` or `+.dom` in record data; hypotheses about each file's index as for
`C22_left_wildcard_partial`. -/
theorem C50_rdata_left_partial (hU : LooseFiles ws files recs) {c : UInt8} (hc : c = 42 ∨ c = 43)
    {dom : Name} (hn : legalName ([c] :: dom)) (hw1 : ¬ endsWild ([c] :: dom)) (hw2 : ¬ endsLikeWild ([c] :: dom))
    {a : Ask} (ha : a.legal) (hty : ∀ t, a.ty = some t → t ∈ nameTypes) {target : RR → Option Name}
    (hT : Targets target (files.flatMap recs)) (hI : ∀ f ∈ files, RevIndexed target a.ty (recs f))
    (hC : ∀ f ∈ files, RevComplete target (fun t => nameTypes.contains t && a.ty.all (· == t)) (recs f))
    (hr : ∀ env w w' F, looseFiles a.times env w w' files = .ok F →
      ∀ t n s, a.ty = some t → (Rec.rev n (some s)).row ∈ F.index → ¬ endsBefore t s)
    (hB : ∀ t, a.ty = some t → t ∈ bareNameTypes → ∀ n, leftWild c dom n = true → Bare target t (files.flatMap recs) n) :
    LooseDeliverBy (targetText target) files (a.query .rdataName (wire ([c] :: dom)))
      ((files.flatMap recs).filter (wantRr (namesIn target (leftWild c dom)) a.ty a.times)) :=
  fun env w w' => rdata_left_loose hU hc hn hw1 hw2 ha hty hT hI hC (fun F hF t n s e _ => hr env w w' F hF t n s e) hB

end

/-- C50, the switch: a query that asks for aggregated results opens the sources of C27. -/
theorem C50_aggregated {files : List Src} {q : Query} {E : List Rec} (hq : q.aggregated = true)
    (h : FilesDeliver files q E) (env : FsEnv) (w w' : World) :
    ∃ O, openFileset q env w w' files = .ok O ∧ DeliversFrom (O.sources q env) q E := by
  obtain ⟨F, h1, h2⟩ := h env w
  exact ⟨.merged F, by simp only [openFileset, hq, if_true, h1, Out.ok_bind], h2⟩

/-! ## Example -/

theorem exSet_loose : LooseFiles [0] exSet exRecs := by
  refine ⟨by decide, exSet_fileset.file, ?_⟩
  intro f hf
  simp only [exSet, List.mem_cons, List.not_mem_nil, or_false] at hf
  rcases hf with rfl | rfl | rfl <;> simp only <;> decide +kernel

/-- `*.com` over the three files of `exSet`, unaggregated and without time bounds: every observation of its own. -/
example : LooseDeliver exSet (({} : Ask).query .rrset (wire ([42] :: exCom)))
    [.rrset exA ⟨10, 20, 1⟩, .rrset exB ⟨12, 18, 1⟩, .rrset exA ⟨5, 8, 2⟩, .rrset exB ⟨1, 2, 1⟩] := by
  have h := C50_rrset_left exSet_loose (c := 42) (.inl rfl) (dom := exCom) (by decide +kernel) (a := {}) (by simp [Ask.legal])
  have e : (exSet.flatMap exRecs).filter (wantRrset (leftWild 42 exCom) none none {}) =
      [.rrset exA ⟨10, 20, 1⟩, .rrset exB ⟨12, 18, 1⟩, .rrset exA ⟨5, 8, 2⟩, .rrset exB ⟨1, 2, 1⟩] := by decide +kernel
  rwa [show ({} : Ask).ty = none from rfl, show ({} : Ask).bw = none from rfl, show ({} : Ask).times = {} from rfl, e] at h

/-- The order in which these rows come: the earlier observation of each name first. -/
example : unaggregated (fun _ => 0) (exSet.map (·.rows)) = .ok (rowsOf
    [.rrset exA ⟨5, 8, 2⟩, .rrset exA ⟨10, 20, 1⟩, .rrset exB ⟨1, 2, 1⟩, .rrset exB ⟨12, 18, 1⟩,
     .fwd exA.owner (some (.byte 1)), .fwd exA.owner (some (.byte 1)), .fwd exB.owner (some (.byte 1)),
     .fwd exB.owner (some (.byte 1)), .timeRange 10 20, .timeRange 5 8, .timeRange 1 2]) := by decide +kernel

/-- With the bounds of `exBounds` only the first file has anything to deliver. -/
example : LooseDeliver exSet (({ times := exBounds } : Ask).query .rrset (wire ([42] :: exCom)))
    [.rrset exA ⟨10, 20, 1⟩, .rrset exB ⟨12, 18, 1⟩] := by
  have h := C50_rrset_left exSet_loose (c := 42) (.inl rfl) (dom := exCom) (by decide +kernel)
    (a := { times := exBounds }) (by simp [Ask.legal])
  have e : (exSet.flatMap exRecs).filter (wantRrset (leftWild 42 exCom) none none exBounds) =
      [.rrset exA ⟨10, 20, 1⟩, .rrset exB ⟨12, 18, 1⟩] := by decide +kernel
  rwa [show ({ times := exBounds } : Ask).ty = none from rfl, show ({ times := exBounds } : Ask).bw = none from rfl,
    show ({ times := exBounds } : Ask).times = exBounds from rfl, e] at h

/-- Counterexample for malformed files: two files with a row of the same key and no times in the values abort the program. -/
theorem C50_malformed_counterexample (pick : List Table → Nat) :
    unaggregated pick [[([0, 0], [])], [([0, 0], [])]] = .fault .abort := by
  have hc : chooseFirst pick [[([0, 0], [])], [([0, 0], [])]] = none := by
    have h : ∀ i, isFirstRow [[([0, 0], [])], [([0, 0], [])]] i = false
      | 0 => by decide +kernel
      | 1 => by decide +kernel
      | _ + 2 => rfl
    unfold chooseFirst
    rw [h]
    simp [h]
  unfold unaggregated
  show interleave pick 3 _ = _
  rw [interleave, hc]
  rfl

end Verif.Props
