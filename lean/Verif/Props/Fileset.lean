import Verif.Lemmas.FilesetIndex
import Verif.Props.Rrset
import Verif.Props.Rdata
import Verif.Props.Index
import Verif.Props.Ranges
import Verif.Props.QueryFilter

/-! # C27: time-filtered queries over file sets -/

namespace Verif.Props

open Verif Verif.Spec

/-- Files that can be merged have an aggregated view. -/
theorem C27_view {ws : List Nat} (hws : ws.length ≤ 30) {files : List Src} {recs : Src → List Rec}
    (hf : ∀ f ∈ files, FileOf ws f (recs f)) : ∃ Us, Fileset ws files recs Us := by
  obtain ⟨Us, h1, h2, -⟩ := aggregated_recs hws
    (fun f h => ⟨(hf f h).rows, (hf f h).stored, (hf f h).mergeable⟩) fun _ => 0
  exact ⟨Us, hws, hf, ⟨_, h1⟩, h2⟩

section
variable {ws : List Nat} {files : List Src} {recs : Src → List Rec} {Us : List Rec}

/-- Whatever is delivered by all sources that offer the records of the aggregated view is delivered by the
file set and by the table of the aggregated view. -/
private theorem both (hU : Fileset ws files recs Us) {q : Query} {E : List Rec}
    (h : ∀ S, Offers Us q S → DeliversFrom S q E) : FilesDeliver files q E ∧ Delivers Us q E := by
  refine ⟨fun env w => ?_, fun sf => h _ (offers_plain hU.stored q sf)⟩
  obtain ⟨F, -, -, -, hF, -⟩ := fenced_total hU.small hU.file q.bounds env w
  obtain ⟨pick, hv⟩ := hU.view
  exact ⟨F, hF, h _ (offers_fileset (fun f hf => (hU.file f hf).truthfulFile) hF hv)⟩

/-- C27, RRsets of a name: the time-filtered query over the files, and the query over the aggregated
view of all files, deliver the same: those records of the aggregated view that are asked for and within
the bounds.  (Each record of `Us` carries the aggregated times and count, `C48_observations`.) -/
theorem C27_rrset (hU : Fileset ws files recs Us) {n : Name} (hn : legalName n) (hp : PlainName n) {a : Ask} (ha : a.legal) :
    let E := Us.filter (wantRrset (· == n) a.ty a.bw a.times)
    FilesDeliver files (a.query .rrset (wire n)) E ∧ Delivers Us (a.query .rrset (wire n)) E :=
  both hU fun _ hO => rrset_exact_from hU.stored hO hn hp ha

/-- C27, RRsets of `*.dom` or `+.dom`. -/
theorem C27_rrset_left (hU : Fileset ws files recs Us) {c : UInt8} (hc : c = 42 ∨ c = 43) {dom : Name}
    (hn : legalName ([c] :: dom)) {a : Ask} (ha : a.legal) :
    let E := Us.filter (wantRrset (leftWild c dom) a.ty a.bw a.times)
    FilesDeliver files (a.query .rrset (wire ([c] :: dom))) E ∧ Delivers Us (a.query .rrset (wire ([c] :: dom))) E :=
  both hU fun _ hO => rrset_left_from hU.stored hc hO hn ha

/-- C27, a name in record data; hypotheses as for `C21_exact_name_partial`. -/
theorem C27_rdata_partial (hU : Fileset ws files recs Us) {n : Name} (hn : legalName n) (hp : PlainName n) {a : Ask}
    (ha : a.legal) (hty : ∀ t, a.ty = some t → t ∈ nameTypes) {target : RR → Option Name}
    (hT : Targets target Us) (hB : ∀ t, a.ty = some t → t ∈ bareNameTypes → Bare target t Us n) :
    let E := Us.filter (wantRr (namesIn target (· == n)) a.ty a.times)
    FilesDeliver files (a.query .rdataName (wire n)) E ∧ Delivers Us (a.query .rdataName (wire n)) E :=
  both hU fun _ hO => rdata_exact_from hU.stored hO hn hp ha hty hT hB

/-- C27, names `front.*` or `front.+` in record data; hypotheses as for `C21_right_wildcard`. -/
theorem C27_rdata_right_partial (hU : Fileset ws files recs Us) {c : UInt8} (hc : c = 42 ∨ c = 43) {front : Name} {a : Ask}
    (hn : legalName (front ++ [[c]])) (hty : ∀ t, a.ty = some t → t ∈ nameTypes)
    {target : RR → Option Name} (hT : Targets target Us)
    (hN : ∀ r o, Rec.rr r o ∈ Us → r.rrtype ∈ nameTypes → target r = none → ¬ flat front <+: r.tail) :
    let E := Us.filter (wantRr (namesIn target (rightWild c front)) a.ty a.times)
    FilesDeliver files (a.query .rdataName (wire (front ++ [[c]]))) E ∧
      Delivers Us (a.query .rdataName (wire (front ++ [[c]]))) E :=
  both hU fun _ hO => rdata_right_from hU.stored hc hO hn hty hT hN

/-- C27, raw record data. -/
theorem C27_rdata_raw (hU : Fileset ws files recs Us) (d : Bytes) (a : Ask) :
    let q : Query := { a.query .rdataRaw [] with rdata := some d, lenRdata := d.length }
    let E := Us.filter (wantRr (fun r => d.isPrefixOf (r.tail ++ leb r.rrtype ++ wire r.owner.reverse ++ r.lead
        ++ word16 r.tail.length)) a.ty a.times)
    FilesDeliver files q E ∧ Delivers Us q E :=
  both hU fun _ hO => rdata_raw_from hU.stored d a hO

/-- C27, ranges of addresses; hypotheses as for `C23_range_partial`. -/
theorem C27_rdata_range_partial (hU : Fileset ws files recs Us) {L t : Nat} (hk : AddrKind L t) (hA : AddrRecords L t Us)
    (a : Ask) {lo hi : Bytes} (hlo : lo.length = L) (hhi : hi.length = L) (hc : NoneCut L t lo hi Us) :
    let E := Us.filter (wantRr (between lo hi) (some t) a.times)
    FilesDeliver files (a.addresses t lo hi) E ∧ Delivers Us (a.addresses t lo hi) E :=
  both hU fun _ hO => rdata_range_from hU.stored hk hA a hO hlo hhi hc

/-- C27, one address; hypotheses as for `C23_address_partial`. -/
theorem C27_rdata_address_partial (hU : Fileset ws files recs Us) {L t : Nat} (hk : AddrKind L t) (hA : AddrRecords L t Us)
    (a : Ask) {ip : Bytes} (hip : ip.length = L) (hc : NoneCut L t ip ip Us) :
    let E := Us.filter (wantRr (fun r => r.tail == ip) (some t) a.times)
    FilesDeliver files (a.addresses t ip []) E ∧ Delivers Us (a.addresses t ip []) E :=
  both hU fun _ hO => rdata_address_from hU.stored hk hA a hO hip hc

theorem rrset_right_at (hU : Fileset ws files recs Us) (hI : ∀ f ∈ files, FwdIndexed (recs f)) {c : UInt8}
    (hc : c = 42 ∨ c = 43) {front : Name} (hn : legalName (front ++ [[c]])) (hw : ¬ startsWild (front ++ [[c]]))
    {a : Ask} (ha : a.legal) {env : FsEnv} {w : World}
    (hr : ∀ F, fencedFiles a.times env w files = .ok F →
      ∀ t n s, a.ty = some t → (Rec.fwd n (some s)).legal → (Rec.fwd n (some s)).row ∈ F.kept → ¬ endsBefore t s) :
    ∃ F, fencedFiles a.times env w files = .ok F ∧
      DeliversFrom (filesetSources a.times env F) (a.query .rrset (wire (front ++ [[c]])))
        (sortedBy ownerText (Us.filter (wantRrset (rightWild c front) a.ty a.bw a.times))) := by
  obtain ⟨F, K, L, Xs, hF, hG, hk, hSX, hX, hC⟩ := fenced_total hU.small hU.file a.times env w
  obtain ⟨pick, hv⟩ := hU.view
  have h1 := rrset_right_from hU.stored hSX hc hn hw
    (fwdLists_kept hU.file hI hG (fun _ hx _ => kept_rec hU.file hG hv hU.stored hx) hU.stored hX hSX hC) ha
    (fun t n s h1 h2 => hr F hF t n s h1 (hSX.legal _ h2) (by rw [hk]; exact List.mem_map.2 ⟨_, h2, rfl⟩))
  refine ⟨F, hF, h1 _ (offers_fileset (q := a.query .rrset (wire (front ++ [[c]])))
    (fun f hf => (hU.file f hf).truthfulFile) hF hv) fun V => ?_⟩
  have := impl_withTimeout (q := a.query .rrset (wire (front ++ [[c]]))) (impl_cur hSX.sorted env.seekIndex V)
  rw [filesetSources, hk]
  exact this

/-- C27, RRsets of `front.*` or `front.+`, which go by the forward index of the kept files.  Every file has
a documented index; no type set of the index of the kept files is cut off before the type asked for
(`C20_overread_counterexample`). -/
theorem C27_rrset_right_partial (hU : Fileset ws files recs Us) (hI : ∀ f ∈ files, FwdIndexed (recs f)) {c : UInt8}
    (hc : c = 42 ∨ c = 43) {front : Name} (hn : legalName (front ++ [[c]])) (hw : ¬ startsWild (front ++ [[c]]))
    {a : Ask} (ha : a.legal)
    (hr : ∀ env w F, fencedFiles a.times env w files = .ok F →
      ∀ t n s, a.ty = some t → (Rec.fwd n (some s)).row ∈ F.kept → ¬ endsBefore t s) :
    FilesDeliver files (a.query .rrset (wire (front ++ [[c]])))
      (sortedBy ownerText (Us.filter (wantRrset (rightWild c front) a.ty a.bw a.times))) :=
  fun env w => rrset_right_at hU hI hc hn hw ha fun F hF t n s e _ => hr env w F hF t n s e

/-- C27, RRsets of `front.*` or `front.+` of any type. -/
theorem C27_rrset_right_any (hU : Fileset ws files recs Us) (hI : ∀ f ∈ files, FwdIndexed (recs f)) {c : UInt8}
    (hc : c = 42 ∨ c = 43) {front : Name} (hn : legalName (front ++ [[c]])) (hw : ¬ startsWild (front ++ [[c]]))
    {a : Ask} (ha : a.legal) (hty : a.ty = none) :
    FilesDeliver files (a.query .rrset (wire (front ++ [[c]])))
      (sortedBy ownerText (Us.filter (wantRrset (rightWild c front) a.ty a.bw a.times))) :=
  C27_rrset_right_partial hU hI hc hn hw ha fun _ _ _ _ t _ _ h => by rw [hty] at h; cases h

theorem rdata_left_at (hU : Fileset ws files recs Us) {c : UInt8} (hc : c = 42 ∨ c = 43)
    {dom : Name} (hn : legalName ([c] :: dom)) (hw1 : ¬ endsWild ([c] :: dom)) (hw2 : ¬ endsLikeWild ([c] :: dom))
    {a : Ask} (ha : a.legal) (hty : ∀ t, a.ty = some t → t ∈ nameTypes) {target : RR → Option Name}
    (hT : Targets target Us) (hI : ∀ f ∈ files, RevIndexed target a.ty (recs f))
    (hC : ∀ f ∈ files, RevComplete target (fun t => nameTypes.contains t && a.ty.all (· == t)) (recs f))
    {env : FsEnv} {w : World}
    (hr : ∀ F, fencedFiles a.times env w files = .ok F →
      ∀ t n s, a.ty = some t → (Rec.rev n (some s)).legal → (Rec.rev n (some s)).row ∈ F.kept → ¬ endsBefore t s)
    (hB : ∀ t, a.ty = some t → t ∈ bareNameTypes → ∀ n, leftWild c dom n = true → Bare target t Us n) :
    ∃ F, fencedFiles a.times env w files = .ok F ∧
      DeliversFrom (filesetSources a.times env F) (a.query .rdataName (wire ([c] :: dom)))
        (sortedBy (targetText target) (Us.filter (wantRr (namesIn target (leftWild c dom)) a.ty a.times))) := by
  obtain ⟨F, K, L, Xs, hF, hG, hk, hSX, hX, hCov⟩ := fenced_total hU.small hU.file a.times env w
  obtain ⟨pick, hv⟩ := hU.view
  obtain ⟨hR, hlisted⟩ := revLists_kept hty hU.file hI hC hG (fun _ hx _ => kept_rec hU.file hG hv hU.stored hx)
    hU.stored hX hSX hCov
  have h1 := rdata_left_from hU.stored hSX hc hn hw1 hw2 ha hty hT hR
    (fun t n s h1 h2 => hr F hF t n s h1 (hSX.legal _ h2) (by rw [hk]; exact List.mem_map.2 ⟨_, h2, rfl⟩)) hB
  have e : Us.filter (wantRr (namesIn target fun m => leftWild c dom m && revListed Xs m) a.ty a.times) =
      Us.filter (wantRr (namesIn target (leftWild c dom)) a.ty a.times) := by
    apply List.filter_congr
    intro x hx
    cases x with
    | rr r o =>
      simp only [wantRr, namesIn]
      cases h3 : nameTypes.contains r.rrtype with
      | false => simp
      | true =>
        cases h4 : a.ty.all (· == r.rrtype) with
        | false => simp
        | true =>
          cases h5 : inBounds a.times o with
          | false => simp
          | true =>
            cases ht : target r with
            | none => simp
            | some m => simp [hlisted r o m hx h5 h3 h4 ht]
    | _ => rfl
  rw [e] at h1
  refine ⟨F, hF, h1 _ (offers_fileset (q := a.query .rdataName (wire ([c] :: dom)))
    (fun f hf => (hU.file f hf).truthfulFile) hF hv) fun V => ?_⟩
  have := impl_withTimeout (q := a.query .rdataName (wire ([c] :: dom))) (impl_cur hSX.sorted env.seekIndex V)
  rw [filesetSources, hk]
  exact this

/-- C27, names `*.dom` or `+.dom` in record data, which go by the reverse index of the kept files;
hypotheses about each file's index as for `C22_left_wildcard_partial`. -/
theorem C27_rdata_left_partial (hU : Fileset ws files recs Us) {c : UInt8} (hc : c = 42 ∨ c = 43)
    {dom : Name} (hn : legalName ([c] :: dom)) (hw1 : ¬ endsWild ([c] :: dom)) (hw2 : ¬ endsLikeWild ([c] :: dom))
    {a : Ask} (ha : a.legal) (hty : ∀ t, a.ty = some t → t ∈ nameTypes) {target : RR → Option Name}
    (hT : Targets target Us) (hI : ∀ f ∈ files, RevIndexed target a.ty (recs f))
    (hC : ∀ f ∈ files, RevComplete target (fun t => nameTypes.contains t && a.ty.all (· == t)) (recs f))
    (hr : ∀ env w F, fencedFiles a.times env w files = .ok F →
      ∀ t n s, a.ty = some t → (Rec.rev n (some s)).row ∈ F.kept → ¬ endsBefore t s)
    (hB : ∀ t, a.ty = some t → t ∈ bareNameTypes → ∀ n, leftWild c dom n = true → Bare target t Us n) :
    FilesDeliver files (a.query .rdataName (wire ([c] :: dom)))
      (sortedBy (targetText target) (Us.filter (wantRr (namesIn target (leftWild c dom)) a.ty a.times))) :=
  fun env w => rdata_left_at hU hc hn hw1 hw2 ha hty hT hI hC (fun F hF t n s e _ => hr env w F hF t n s e) hB

end

/-! ## Example -/

/-- `a.com` and `b.com`, A records each. -/
def exA : RRset := ⟨[[97], [99, 111, 109]], 1, exCom, [[1, 2, 3, 4]]⟩
def exB : RRset := ⟨[[98], [99, 111, 109]], 1, exCom, [[1, 2, 3, 4]]⟩

/-- Three files: one kept, one filling in, one removing, for the bounds of `exBounds`. -/
def exKept : List Rec :=
  [.rrset exA ⟨10, 20, 1⟩, .rrset exB ⟨12, 18, 1⟩, .fwd exA.owner (some (.byte 1)), .fwd exB.owner (some (.byte 1)),
   .timeRange 10 20]
def exFill : List Rec := [.rrset exA ⟨5, 8, 2⟩, .fwd exA.owner (some (.byte 1)), .timeRange 5 8]
def exRemove : List Rec := [.rrset exB ⟨1, 2, 1⟩, .fwd exB.owner (some (.byte 1)), .timeRange 1 2]

def exSet : List Src := [⟨rowsOf exKept, fun _ _ => false⟩, ⟨rowsOf exFill, fun _ _ => true⟩, ⟨rowsOf exRemove, fun _ _ => false⟩]

def exRecs (f : Src) : List Rec :=
  if f.rows = rowsOf exKept then exKept else if f.rows = rowsOf exFill then exFill else exRemove

/-- First seen not before 3, last seen not before 15. -/
def exBounds : Bounds := { firstAfter := some 3, lastAfter := some 15 }

/-- The aggregated view: `a.com` was first seen at 5, which only the second file knows; `b.com` at 1,
which only the third knows. -/
def exUnion : List Rec :=
  [.rrset exA ⟨5, 20, 3⟩, .rrset exB ⟨1, 18, 2⟩, .fwd exA.owner (some (.byte 1)), .fwd exB.owner (some (.byte 1)),
   .timeRange 1 20]

example : fenceTimes exBounds 10 20 = .keep ∧ fenceTimes exBounds 5 8 = .fill ∧ fenceTimes exBounds 1 2 = .remove := by
  decide

theorem exSet_fileset : Fileset [0] exSet exRecs exUnion := by
  have legal : ∀ x, x ∈ exKept ++ exFill ++ exRemove ++ exUnion → x.legal ∧ Mergeable [0] x := by
    intro x hx
    simp only [exKept, exFill, exRemove, exUnion, List.mem_append, List.mem_cons, List.not_mem_nil, or_false] at hx
    have fwd : ∀ n : Name, legalName n → (Rec.fwd n (some (.byte 1))).legal ∧ Mergeable [0] (.fwd n (some (.byte 1))) := by
      intro n hn
      refine ⟨⟨hn, fun t ht => by rw [← Option.some.inj ht]; decide⟩, ⟨1, rfl⟩, rfl, fun t ht => ?_⟩
      simp [TypeSet.has] at ht
      have : t < 256 := by
        omega
      simp; omega
    rcases hx with (((rfl | rfl | rfl | rfl | rfl) | rfl | rfl | rfl) | rfl | rfl | rfl) | rfl | rfl | rfl | rfl | rfl
    all_goals first
      | exact fwd _ (by decide +kernel)
      | exact ⟨by simp only [Rec.legal]; decide +kernel, trivial⟩
  refine ⟨by decide, ?_, ⟨fun _ => 0, by decide +kernel⟩, ⟨fun x hx => (legal x (by simp [hx])).1, by decide +kernel⟩⟩
  intro f hf
  simp only [exSet, List.mem_cons, List.not_mem_nil, or_false] at hf
  rcases hf with rfl | rfl | rfl
  · have e : exRecs ⟨rowsOf exKept, fun _ _ => false⟩ = exKept := by decide +kernel
    rw [e]
    refine ⟨rfl, ⟨fun x hx => (legal x (by simp [hx])).1, by decide +kernel⟩, ?_, fun x hx => (legal x (by simp [hx])).2⟩
    intro x hx o ho
    simp only [exKept, List.mem_cons, List.not_mem_nil, or_false] at hx
    rcases hx with rfl | rfl | rfl | rfl | rfl <;> simp [obsOf] at ho <;> subst ho <;> simp [exKept]
  · have e : exRecs ⟨rowsOf exFill, fun _ _ => true⟩ = exFill := by decide +kernel
    rw [e]
    refine ⟨rfl, ⟨fun x hx => (legal x (by simp [hx])).1, by decide +kernel⟩, ?_, fun x hx => (legal x (by simp [hx])).2⟩
    intro x hx o ho
    simp only [exFill, List.mem_cons, List.not_mem_nil, or_false] at hx
    rcases hx with rfl | rfl | rfl <;> simp [obsOf] at ho <;> subst ho <;> simp [exFill]
  · have e : exRecs ⟨rowsOf exRemove, fun _ _ => false⟩ = exRemove := by decide +kernel
    rw [e]
    refine ⟨rfl, ⟨fun x hx => (legal x (by simp [hx])).1, by decide +kernel⟩, ?_, fun x hx => (legal x (by simp [hx])).2⟩
    intro x hx o ho
    simp only [exRemove, List.mem_cons, List.not_mem_nil, or_false] at hx
    rcases hx with rfl | rfl | rfl <;> simp [obsOf] at ho <;> subst ho <;> simp [exRemove]

/-- `*.com` within the bounds over the three files: `a.com` with the times and count of two files. -/
example : FilesDeliver exSet (({ times := exBounds } : Ask).query .rrset (wire ([42] :: exCom))) [.rrset exA ⟨5, 20, 3⟩] := by
  have h := (C27_rrset_left exSet_fileset (c := 42) (.inl rfl) (dom := exCom) (by decide +kernel)
    (a := { times := exBounds }) (by simp [Ask.legal])).1
  have e : exUnion.filter (wantRrset (leftWild 42 exCom) none none exBounds) = [.rrset exA ⟨5, 20, 3⟩] := by decide +kernel
  rwa [show ({ times := exBounds } : Ask).ty = none from rfl, show ({ times := exBounds } : Ask).bw = none from rfl,
    show ({ times := exBounds } : Ask).times = exBounds from rfl, e] at h

/-- `a.*` within the bounds goes by the index of the first file. -/
example : FilesDeliver exSet (({ times := exBounds } : Ask).query .rrset (wire ([[97]] ++ [[42]])))
    [.rrset exA ⟨5, 20, 3⟩] := by
  have hI : ∀ f ∈ exSet, FwdIndexed (exRecs f) := by
    intro f hf
    simp only [exSet, List.mem_cons, List.not_mem_nil, or_false] at hf
    rcases hf with rfl | rfl | rfl
    · rw [show exRecs ⟨rowsOf exKept, fun _ _ => false⟩ = exKept by decide +kernel]
      refine ⟨?_, ?_, by decide +kernel⟩
      · intro r o h
        simp [exKept] at h
        rcases h with ⟨rfl, -⟩ | ⟨rfl, -⟩ <;> exact ⟨some (.byte 1), by decide⟩
      · intro r o s h hs
        simp [exKept] at h hs
        rcases h with ⟨rfl, -⟩ | ⟨rfl, -⟩ <;> rcases hs with ⟨-, rfl⟩ | ⟨-, rfl⟩ <;> decide
    · rw [show exRecs ⟨rowsOf exFill, fun _ _ => true⟩ = exFill by decide +kernel]
      refine ⟨?_, ?_, by decide +kernel⟩
      · intro r o h
        simp [exFill] at h
        obtain ⟨rfl, -⟩ := h
        exact ⟨some (.byte 1), by decide⟩
      · intro r o s h hs
        simp [exFill] at h hs
        obtain ⟨rfl, -⟩ := h
        obtain ⟨-, rfl⟩ := hs
        decide
    · rw [show exRecs ⟨rowsOf exRemove, fun _ _ => false⟩ = exRemove by decide +kernel]
      refine ⟨?_, ?_, by decide +kernel⟩
      · intro r o h
        simp [exRemove] at h
        obtain ⟨rfl, -⟩ := h
        exact ⟨some (.byte 1), by decide⟩
      · intro r o s h hs
        simp [exRemove] at h hs
        obtain ⟨rfl, -⟩ := h
        obtain ⟨-, rfl⟩ := hs
        decide
  have h := C27_rrset_right_any exSet_fileset hI (c := 42) (.inl rfl) (front := [[97]]) (by decide +kernel)
    (by rintro ⟨c, m, h, hc⟩
        simp only [List.cons_append, List.nil_append, List.cons.injEq, and_true] at h
        rw [← h.1] at hc; revert hc; decide) (a := { times := exBounds }) (by simp [Ask.legal]) rfl
  have e : exUnion.filter (wantRrset (rightWild 42 [[97]]) none none exBounds) = [.rrset exA ⟨5, 20, 3⟩] := by decide +kernel
  rwa [show ({ times := exBounds } : Ask).ty = none from rfl, show ({ times := exBounds } : Ask).bw = none from rfl,
    show ({ times := exBounds } : Ask).times = exBounds from rfl, e,
    sortedBy_eq (List.Perm.refl _) (List.pairwise_singleton _ _)] at h

/-- C27 counterexample: a record stored with first-seen time 9 and last-seen time 0, alone in a file whose
time range is from 9 (the earliest first-seen time) to 9.  With the upper bound 5 on the last-seen time the
file is taken away, and the query over the file set finds nothing; the query over the (one-file) aggregated
view returns the record.  Such a time range does not cover the last-seen time as stored (`Truthful`). -/
theorem C27_zero_last_counterexample :
    let q : Query := { qType := .rrset, name := [1, 97, 3, 99, 111, 109, 0], rrtype := 1, bounds := { lastBefore := some 5 } }
    let T : Table := [([0, 3, 99, 111, 109, 1, 97, 0, 1, 3, 99, 111, 109, 0, 4, 1, 2, 3, 4], tripletPack 9 0 1),
      ([254], pairPack 9 9)]
    let p : Plan := { view := .pfx [0, 3, 99, 111, 109, 1, 97, 0] }
    let f : Src := ⟨T, fun _ _ => false⟩
    let no := fun (_ : View) (_ : Bytes) => false
    let env : FsEnv := ⟨fun _ => 0, fun _ => 0, no, no, no⟩
    let shown := fun (B : Built) => (queryRun q B [{}] B.start (exWorld 0)).map
      (fun c => match c.res with
        | .entry e => some e.timeFirst
        | _ => none)
    initKind q = .ok p ∧ fencedFiles q.bounds env (exWorld 0) [f] = .ok ⟨[], [], [f]⟩ ∧
    shown (assemble q (filesetSources q.bounds env ⟨[], [], [f]⟩) p) = [none] ∧
    aggregated (fun _ => 0) [T] = .ok T ∧
    shown (assemble q (plainSources (curM T no)) p) = [some 9] := by
  refine ⟨exACom_plan _ rfl rfl rfl rfl, ?_, by decide +kernel, by decide +kernel, by decide +kernel⟩
  have h : fence { lastBefore := some 5 } ⟨[([0, 3, 99, 111, 109, 1, 97, 0, 1, 3, 99, 111, 109, 0, 4, 1, 2, 3, 4],
      tripletPack 9 0 1), ([254], pairPack 9 9)], fun _ _ => false⟩ (exWorld 0) = .ok .remove := by decide +kernel
  simp only [fencedFiles, fenceAll, h, Out.ok_bind]
  rfl

end Verif.Props
