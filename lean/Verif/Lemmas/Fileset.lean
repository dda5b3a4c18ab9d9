import Verif.Spec.Fileset
import Verif.Lemmas.QueryCore
import Verif.Lemmas.Ljoin
import Verif.Lemmas.Remove
import Verif.Props.Aggregate
import Verif.Props.Mtbl

/-! # Lemmas: queries over file sets -/

namespace Verif
open Spec

/-! ## Which files go where -/

/-- The observation fails one of the two strict bounds. -/
def Failing (b : Bounds) (o : Obs) : Prop :=
  (∃ x, b.firstAfter = some x ∧ o.first < x) ∨ ∃ x, b.lastBefore = some x ∧ x < o.last

/-- The observation does not by itself meet the bound by which files are set aside. -/
def Lacking (b : Bounds) (o : Obs) : Prop :=
  (∃ x, b.lastAfter = some x ∧ o.last < x) ∨ b.lastAfter = none ∧ ∃ x, b.firstBefore = some x ∧ x < o.first

theorem fenceTimes_remove {b : Bounds} {m M : Nat} (h : fenceTimes b m M = .remove) {o : Obs}
    (h1 : m ≤ o.last) (h2 : o.first ≤ M) : Failing b o := by
  unfold fenceTimes at h
  rcases b with ⟨fb, fa, lb, la⟩
  split at h
  · rename_i hx
    cases fa with
    | none => simp at hx
    | some x => simp at hx; exact .inl ⟨x, rfl, by omega⟩
  split at h
  · cases h
  split at h
  · rename_i hx
    cases lb with
    | none => simp at hx
    | some x => simp at hx; exact .inr ⟨x, rfl, by omega⟩
  split at h <;> cases h

theorem fenceTimes_fill {b : Bounds} {m M : Nat} (h : fenceTimes b m M = .fill) {o : Obs}
    (h1 : m ≤ o.first) (h2 : o.last ≤ M) : Lacking b o := by
  unfold fenceTimes at h
  rcases b with ⟨fb, fa, lb, la⟩
  split at h
  · cases h
  split at h
  · rename_i hx
    cases la with
    | none => simp at hx
    | some x => simp at hx; exact .inl ⟨x, rfl, by omega⟩
  split at h
  · cases h
  split at h
  · rename_i hx
    rw [Bool.and_eq_true] at hx
    obtain ⟨hx, hy⟩ := hx
    cases fb with
    | none => simp at hx
    | some x => 
      cases la with
      | some y => simp at hy
      | none => simp at hx; exact .inr ⟨rfl, x, rfl, by omega⟩
  · cases h

theorem fence_spec {f : Src} {Ts : List Rec} (hr : f.rows = rowsOf Ts) (hS : Stored Ts) (b : Bounds) (w : World) :
    ∃ d, fence b f w = .ok d ∧ (d = .keep ∨ ∃ m M, Rec.timeRange m M ∈ Ts ∧ d = fenceTimes b m M) := by
  have h1 := stored_core (q := timeRangeQuery) (p := { view := .pfx [254] }) (V := .pfx [254]) hS f.seekFails
    (curM (rowsOf Ts) f.seekFails) trivial (fun h => by cases h)
  have hleg : ∀ x ∈ Ts.filter (fun x => inView (.pfx [254]) x.key &&
      ((([] : List Filt).all fun f => passes f.2 x.row) && timePass timeRangeQuery.bounds x.row)), x.legal :=
    fun x hx => hS.legal x (List.mem_filter.1 hx).1
  have h2 := (query_direct (S := plainSources (curM (rowsOf Ts) f.seekFails)) (q := timeRangeQuery)
    (p := { view := .pfx [254] }) rfl h1 (safeRows_rows hleg) [{}] (fun h => by cases h) (w := { w with offset := 0 }) rfl).1
  rw [← List.map_drop, filterMap_rows (fun x hx => hleg x (List.mem_of_mem_drop hx))] at h2
  simp only [queryRun] at h2
  have hm : f.mach = curM (rowsOf Ts) f.seekFails := by rw [← hr]
  unfold fence
  rw [show initKind timeRangeQuery = .ok { view := .pfx [254] } from rfl, Out.ok_bind, hm]
  change Returns false _ [_] at h2
  simp only
  generalize hE : Ts.filter (fun x => inView (.pfx [254]) x.key &&
      ((([] : List Filt).all fun f => passes f.2 x.row) && timePass timeRangeQuery.bounds x.row)) = E at h2
  change Returns false (List.map Rec.entry E) _ at h2
  cases E with
  | nil =>
    cases h2 with
    | failure h _ =>
      simp only at h
      rw [show ({ timeRangeQuery with lim := {} } : Query) = timeRangeQuery from rfl] at h
      rw [h]; exact ⟨_, rfl, .inl rfl⟩
    | timeout h _ _ => cases h
  | cons x E =>
    cases h2 with
    | entry h _ =>
      simp only at h
      rw [show ({ timeRangeQuery with lim := {} } : Query) = timeRangeQuery from rfl] at h
      rw [h]
      have hx := hE ▸ (List.mem_cons_self : x ∈ x :: E)
      obtain ⟨hx, hv⟩ := List.mem_filter.1 hx
      rw [Bool.and_eq_true] at hv
      have hv := List.isPrefixOf_iff_prefix.1 hv.1
      cases x with
      | timeRange m M => exact ⟨_, rfl, .inr ⟨m, M, hx, rfl⟩⟩
      | rrset r o => rw [Rec.key, RRset.key, List.cons_prefix_cons] at hv; exact absurd hv.1 (by decide)
      | rr r o => rw [Rec.key, RR.key, List.cons_prefix_cons] at hv; exact absurd hv.1 (by decide)
      | fwd n s => rw [Rec.key, fwdIndexKey, List.cons_prefix_cons] at hv; exact absurd hv.1 (by decide)
      | rev n s => rw [Rec.key, revIndexKey, List.cons_prefix_cons] at hv; exact absurd hv.1 (by decide)
      | version t v => rw [Rec.key, List.cons_prefix_cons] at hv; exact absurd hv.1 (by decide)
      | sourceInfo s => rw [Rec.key, List.cons_prefix_cons] at hv; exact absurd hv.1 (by decide)
    | timeout h _ _ => cases h

theorem timed_key {x : Rec} (h : x.key.head? = some 0 ∨ x.key.head? = some 2) : ∃ o, obsOf x = some o ∧ x.value = o.value := by
  cases x with
  | rrset r o => exact ⟨o, rfl, rfl⟩
  | rr r o => exact ⟨o, rfl, rfl⟩
  | fwd n s => simp [Rec.key, fwdIndexKey] at h
  | rev n s => simp [Rec.key, revIndexKey] at h
  | timeRange m M => simp [Rec.key] at h
  | version t v => simp [Rec.key] at h
  | sourceInfo s => simp [Rec.key] at h

theorem obsOf_legal {x : Rec} (h : x.legal) {o : Obs} (ho : obsOf x = some o) : o.legal := by
  cases x <;> simp [obsOf] at ho
  · subst ho; exact h.2
  · subst ho; exact h.2

/-- The values of RRset and rdata keys in a file, given where the file goes. -/
def FileOk (b : Bounds) (d : Fence) (f : Src) : Prop :=
  Sorted f.rows ∧ ∀ k v, (k, v) ∈ f.rows → k.head? = some 0 ∨ k.head? = some 2 →
    ∃ o : Obs, o.legal ∧ v = o.value ∧ (d = .remove → Failing b o) ∧ (d = .fill → Lacking b o)

theorem fence_file {f : Src} (h : TruthfulFile f) (b : Bounds) (w : World) :
    ∃ d, fence b f w = .ok d ∧ FileOk b d f := by
  obtain ⟨Ts, hr, hS, hT⟩ := h
  obtain ⟨d, h1, h2⟩ := fence_spec hr hS b w
  refine ⟨d, h1, by rw [hr]; exact hS.sorted, fun k v hkv hk => ?_⟩
  rw [hr] at hkv
  obtain ⟨x, hx, e⟩ := List.mem_map.1 hkv
  cases e
  obtain ⟨o, ho, hv⟩ := timed_key hk
  have h4 := fun a b => hT x hx o ho a b
  refine ⟨o, obsOf_legal (hS.legal x hx) ho, hv, fun hd => ?_, fun hd => ?_⟩
  · rcases h2 with h2 | ⟨m, M, hm, h2⟩
    · rw [hd] at h2; cases h2
    · exact fenceTimes_remove (h2.symm.trans hd) (h4 m M hm).2.2.1 (h4 m M hm).2.1
  · rcases h2 with h2 | ⟨m, M, hm, h2⟩
    · rw [hd] at h2; cases h2
    · exact fenceTimes_fill (h2.symm.trans hd) (h4 m M hm).1 (h4 m M hm).2.2.2

theorem fenceAll_spec {files : List Src} (h : ∀ f ∈ files, TruthfulFile f) (b : Bounds) (w : World) :
    ∃ ds, fenceAll b w files = .ok ds ∧ ds.map (·.2) = files ∧ ∀ x ∈ ds, FileOk b x.1 x.2 := by
  induction files with
  | nil => exact ⟨[], rfl, rfl, by simp⟩
  | cons f fs ih =>
    obtain ⟨d, h1, h2⟩ := fence_file (h f List.mem_cons_self) b w
    obtain ⟨ds, h3, h4, h5⟩ := ih fun g hg => h g (List.mem_cons_of_mem _ hg)
    refine ⟨(d, f) :: ds, ?_, by rw [List.map_cons, h4], ?_⟩
    · simp only [fenceAll, h1, h3, Out.ok_bind]
    · intro x hx
      rcases List.mem_cons.1 hx with rfl | hx
      · exact h2
      · exact h5 x hx

/-! ## Aggregated observations -/

/-- The observation a value stands for. -/
def obsIn (v : Bytes) : Obs :=
  match tripletUnpack v with
  | .ok (a, b, c) => ⟨a, b, c⟩
  | _ => ⟨0, 0, 0⟩

theorem obsIn_value {o : Obs} (h : o.legal) : obsIn o.value = o := by
  unfold obsIn
  rw [Obs.value_eq, tripletUnpack_pack h.1 h.2.1 h.2.2]

/-- Earliest first-seen, latest last-seen, sum of counts. -/
def aggObs (os : List Obs) : Obs :=
  ⟨(os.map (·.first)).min?.getD 0, (os.map (·.last)).max?.getD 0, (os.map (·.count)).sum % 2 ^ 64⟩

/-- All observations of a key. -/
def obsAt (k : Bytes) (files : List Table) : List Obs := (valuesOf k files).map obsIn

theorem aggObs_perm {l m : List Obs} (h : l.Perm m) : aggObs l = aggObs m := by
  unfold aggObs
  rw [min?_perm (h.map _), max?_perm (h.map _), (h.map _).sum_nat]

theorem aggObs_first {os : List Obs} (h : os ≠ []) :
    (∃ o ∈ os, (aggObs os).first = o.first) ∧ ∀ o ∈ os, (aggObs os).first ≤ o.first := by
  have : os.map (·.first) ≠ [] := by simpa using h
  obtain ⟨a, ha⟩ := Option.isSome_iff_exists.1 (List.isSome_min?_of_ne_nil this)
  have := List.min?_eq_some_iff.1 ha
  simp only [aggObs, ha, Option.getD_some]
  obtain ⟨o, ho, rfl⟩ := List.mem_map.1 this.1
  exact ⟨⟨o, ho, rfl⟩, fun o' ho' => this.2 _ (List.mem_map.2 ⟨o', ho', rfl⟩)⟩

theorem aggObs_last {os : List Obs} (h : os ≠ []) :
    (∃ o ∈ os, (aggObs os).last = o.last) ∧ ∀ o ∈ os, o.last ≤ (aggObs os).last := by
  have : os.map (·.last) ≠ [] := by simpa using h
  obtain ⟨a, ha⟩ := Option.isSome_iff_exists.1 (List.isSome_max?_of_ne_nil this)
  have := List.max?_eq_some_iff.1 ha
  simp only [aggObs, ha, Option.getD_some]
  obtain ⟨o, ho, rfl⟩ := List.mem_map.1 this.1
  exact ⟨⟨o, ho, rfl⟩, fun o' ho' => this.2 _ (List.mem_map.2 ⟨o', ho', rfl⟩)⟩

theorem aggObs_legal {os : List Obs} (h : ∀ o ∈ os, o.legal) : (aggObs os).legal := by
  by_cases hn : os = []
  · subst hn; decide
  · obtain ⟨⟨o, ho, e1⟩, -⟩ := aggObs_first hn
    obtain ⟨⟨p, hp, e2⟩, -⟩ := aggObs_last hn
    exact ⟨by rw [e1]; exact (h o ho).1, by rw [e2]; exact (h p hp).2.1, Nat.mod_lt _ (by decide)⟩

theorem aggObs_append {l m : List Obs} (hl : l ≠ []) (hm : m ≠ []) :
    aggObs (l ++ m) = ⟨min (aggObs l).first (aggObs m).first, max (aggObs l).last (aggObs m).last,
      ((aggObs l).count + (aggObs m).count) % 2 ^ 64⟩ := by
  have hlm : l ++ m ≠ [] := by simp [hl]
  have a1 := aggObs_first hl
  have a2 := aggObs_first hm
  have a3 := aggObs_first hlm
  have b1 := aggObs_last hl
  have b2 := aggObs_last hm
  have b3 := aggObs_last hlm
  have e1 : (aggObs (l ++ m)).first = min (aggObs l).first (aggObs m).first := by
    obtain ⟨⟨o, ho, e⟩, h⟩ := a3
    obtain ⟨⟨o1, ho1, e1⟩, h1⟩ := a1
    obtain ⟨⟨o2, ho2, e2⟩, h2⟩ := a2
    have := h o1 (List.mem_append_left _ ho1)
    have := h o2 (List.mem_append_right _ ho2)
    rcases List.mem_append.1 ho with ho | ho
    · have := h1 o ho; omega
    · have := h2 o ho; omega
  have e2 : (aggObs (l ++ m)).last = max (aggObs l).last (aggObs m).last := by
    obtain ⟨⟨o, ho, e⟩, h⟩ := b3
    obtain ⟨⟨o1, ho1, e1⟩, h1⟩ := b1
    obtain ⟨⟨o2, ho2, e2⟩, h2⟩ := b2
    have := h o1 (List.mem_append_left _ ho1)
    have := h o2 (List.mem_append_right _ ho2)
    rcases List.mem_append.1 ho with ho | ho
    · have := h1 o ho; omega
    · have := h2 o ho; omega
  have e3 : (aggObs (l ++ m)).count = ((aggObs l).count + (aggObs m).count) % 2 ^ 64 := by
    simp only [aggObs, List.map_append, List.sum_append_nat]
    omega
  rw [← e1, ← e2, ← e3]

/-- Values of a key that stand for legal observations. -/
def ObsKey (k : Bytes) (files : List Table) : Prop := ∀ v ∈ valuesOf k files, ∃ o : Obs, o.legal ∧ v = o.value

theorem mem_valuesOf {k v : Bytes} {files : List Table} : v ∈ valuesOf k files ↔ ∃ f ∈ files, (k, v) ∈ f := by
  unfold valuesOf
  simp only [List.mem_map, List.mem_filter, List.mem_flatten, beq_iff_eq]
  constructor
  · rintro ⟨⟨k', v'⟩, ⟨⟨f, hf, hm⟩, rfl⟩, rfl⟩; exact ⟨f, hf, hm⟩
  · rintro ⟨f, hf, hm⟩; exact ⟨(k, v), ⟨⟨f, hf, hm⟩, rfl⟩, rfl⟩

theorem obsAt_legal {k : Bytes} {files : List Table} (h : ObsKey k files) : ∀ o ∈ obsAt k files, o.legal := by
  intro o ho
  obtain ⟨v, hv, rfl⟩ := List.mem_map.1 ho
  obtain ⟨p, hp, rfl⟩ := h v hv
  rw [obsIn_value hp]; exact hp

/-- The rows of RRset and rdata keys in an aggregated view. -/
theorem aggregated_obs {pick : List Table → Nat} {files : List Table} (hs : ∀ f ∈ files, Sorted f) {T : Table}
    (h : aggregated pick files = .ok T) {k : Bytes} (hk : k.head? = some 0 ∨ k.head? = some 2) (ho : ObsKey k files)
    (v : Bytes) : (k, v) ∈ T ↔ obsAt k files ≠ [] ∧ v = (aggObs (obsAt k files)).value := by
  have hval : ∀ v, (k, v) ∈ T → v = (aggObs (obsAt k files)).value := by
    intro v hv
    obtain ⟨m, M, h1, h2, h3⟩ := Props.C48_observations pick files hs T h k v hk hv
      ((obsAt k files).map fun o => (o.first, o.last, o.count)) (by
        intro x hx
        obtain ⟨o, ho', rfl⟩ := List.mem_map.1 hx
        exact obsAt_legal ho o ho') (by
        rw [obsAt, List.map_map, List.map_map]
        conv => lhs; rw [← List.map_id (valuesOf k files)]
        apply List.map_congr_left
        intro v hv
        obtain ⟨o, ho, rfl⟩ := ho v hv
        simp only [Function.comp, obsIn_value ho, ← Obs.value_eq]; rfl)
    rw [List.map_map] at h1 h2 h3
    have e1 : (obsAt k files).map (·.first) = (obsAt k files).map ((fun x : Nat × Nat × Nat => x.1) ∘ fun o => (o.first, o.last, o.count)) := rfl
    have e2 : (obsAt k files).map (·.last) = (obsAt k files).map ((fun x : Nat × Nat × Nat => x.2.1) ∘ fun o => (o.first, o.last, o.count)) := rfl
    have e3 : (obsAt k files).map (·.count) = (obsAt k files).map ((fun x : Nat × Nat × Nat => x.2.2) ∘ fun o => (o.first, o.last, o.count)) := rfl
    rw [h3, Obs.value_eq]
    simp only [aggObs]
    rw [e1, e2, e3, h1, h2]; rfl
  obtain ⟨-, h2, -⟩ := Props.C48_view pick files hs T h
  constructor
  · intro hv
    refine ⟨?_, hval v hv⟩
    obtain ⟨f, hf, u, hu⟩ := (h2 k).1 ⟨v, hv⟩
    exact List.ne_nil_of_mem (List.mem_map.2 ⟨u, mem_valuesOf.2 ⟨f, hf, hu⟩, rfl⟩)
  · rintro ⟨hne, rfl⟩
    obtain ⟨o, ho'⟩ := List.exists_mem_of_ne_nil _ hne
    obtain ⟨u, hu, -⟩ := List.mem_map.1 ho'
    obtain ⟨f, hf, hm⟩ := mem_valuesOf.1 hu
    obtain ⟨v, hv⟩ := (h2 k).2 ⟨f, hf, u, hm⟩
    have := hval v hv
    rw [← this]; exact hv

theorem valuesOf_append (k : Bytes) (l m : List Table) : valuesOf k (l ++ m) = valuesOf k l ++ valuesOf k m := by
  simp [valuesOf]

theorem obsAt_append (k : Bytes) (l m : List Table) : obsAt k (l ++ m) = obsAt k l ++ obsAt k m := by
  simp [obsAt, valuesOf_append]

theorem obsAt_perm (k : Bytes) {l m : List Table} (h : l.Perm m) : (obsAt k l).Perm (obsAt k m) :=
  ((h.flatten.filter _).map _).map _

/-! ## Time bounds on aggregated observations -/

/-- What the prefilter demands. -/
def preBounds (b : Bounds) (o : Obs) : Bool :=
  b.firstAfter.all (fun x => x ≤ o.first) && b.lastBefore.all (fun x => o.last ≤ x) &&
    b.lastAfter.all (fun x => x ≤ o.last) && (b.lastAfter.isSome || b.firstBefore.all (fun x => o.first ≤ x))

theorem timeMatch_preBounds {o : Obs} (h : o.legal) (b : Bounds) :
    timeMatch b true o.value = .ok (preBounds b o) := by
  unfold timeMatch preBounds
  rw [Obs.value_eq, tripletUnpack_pack h.1 h.2.1 h.2.2]
  rcases b with ⟨_ | a, _ | b, _ | c, _ | d⟩ <;>
    simp only [Option.any, Option.all, Bool.false_eq_true, if_false, decide_eq_true_eq, Bool.true_and,
      Bool.and_true, Option.isSome, Bool.or_true, Bool.true_or, Bool.false_or] <;>
    (repeat' split) <;> simp <;> omega

/-- If the observations of a key together are within the bounds, none of them is in a removed file, some are in
kept files, and those pass the prefilter. -/
theorem split_bounds {b : Bounds} {A L R : List Obs} (hR : ∀ o ∈ R, Failing b o) (hL : ∀ o ∈ L, Lacking b o)
    (hne : A ++ L ++ R ≠ []) (h : inBounds b (aggObs (A ++ L ++ R)) = true) :
    R = [] ∧ A ≠ [] ∧ preBounds b (aggObs A) = true := by
  obtain ⟨⟨f, hf, ef⟩, hfl⟩ := aggObs_first hne
  obtain ⟨⟨l, hl, el⟩, hll⟩ := aggObs_last hne
  rcases b with ⟨fb, fa, lb, la⟩
  simp only [inBounds, Bool.and_eq_true] at h
  obtain ⟨⟨⟨h1, h2⟩, h3⟩, h4⟩ := h
  have R0 : R = [] := by
    cases R with
    | nil => rfl
    | cons o R =>
      exfalso
      have ho : o ∈ A ++ L ++ o :: R := by simp
      have := hfl o ho
      have := hll o ho
      rcases hR o List.mem_cons_self with ⟨x, rfl, hx⟩ | ⟨x, rfl, hx⟩
      · simp only [Option.all_some, decide_eq_true_eq] at h2; omega
      · simp only [Option.all_some, decide_eq_true_eq] at h3; omega
  subst R0
  rw [List.append_nil] at *
  have hfa : f ∈ L → (la = none → ∀ x, fb = some x → x < f.first) := by
    intro hfL hla x hx
    rcases hL f hfL with ⟨y, hy, -⟩ | ⟨-, y, hy, hlt⟩
    · simp only at hy; rw [hla] at hy; cases hy
    · simp only at hy; rw [hx] at hy; cases hy; exact hlt
  have hla : l ∈ L → ∀ x, la = some x → l.last < x := by
    intro hlL x hx
    rcases hL l hlL with ⟨y, hy, hlt⟩ | ⟨hy, -⟩
    · simp only at hy; rw [hx] at hy; cases hy; exact hlt
    · simp only at hy; rw [hx] at hy; cases hy
  have A0 : A ≠ [] := by
    rintro rfl
    rw [List.nil_append] at *
    rcases hL f hf with ⟨x, hx, -⟩ | ⟨hx, x, hy, hlt⟩
    · simp only at hx; subst hx
      have := hla hl x rfl
      simp at h4; omega
    · simp only at hy; subst hy
      simp at h1; omega
  refine ⟨rfl, A0, ?_⟩
  obtain ⟨⟨g, hg, eg⟩, hgl⟩ := aggObs_first A0
  obtain ⟨⟨m, hm, em⟩, hml⟩ := aggObs_last A0
  have a1 := hfl g (List.mem_append_left _ hg)
  have a2 := hll m (List.mem_append_left _ hm)
  simp only [preBounds, Bool.and_eq_true, Bool.or_eq_true]
  refine ⟨⟨⟨?_, ?_⟩, ?_⟩, ?_⟩
  · cases fa with
    | none => rfl
    | some x => simp at h2 ⊢; omega
  · cases lb with
    | none => rfl
    | some x => simp at h3 ⊢; omega
  · cases la with
    | none => rfl
    | some x =>
      simp at h4 ⊢
      rcases List.mem_append.1 hl with hl | hl
      · have := hml l hl; omega
      · have := hla hl x rfl; omega
  · cases la with
    | some x => exact .inl rfl
    | none =>
      refine .inr ?_
      cases fb with
      | none => rfl
      | some x =>
        simp at h1 ⊢
        rcases List.mem_append.1 hf with hf | hf
        · have := hgl f hf; omega
        · have := hfa hf rfl x rfl; omega

/-! ## Tables -/

theorem Spec.StrictSorted.toSorted {T : Table} (h : StrictSorted T) : Sorted T :=
  List.Pairwise.imp (fun hab => lexLe_iff.2 (.inl hab)) h

theorem strict_ext {T U : Table} (hT : StrictSorted T) (hU : StrictSorted U) (h : ∀ kv, kv ∈ T ↔ kv ∈ U) : T = U := by
  have nodup : ∀ {T : Table}, StrictSorted T → T.Nodup := by
    intro T h
    exact h.imp fun {a b} hab e => by rw [e, lexLt_irrefl] at hab; cases hab
  refine List.Perm.eq_of_pairwise (le := fun (a b : KV) => lexLt a.1 b.1 = true) ?_ hT hU
    ((List.perm_ext_iff_of_nodup (nodup hT) (nodup hU)).mpr h)
  intro a b _ _ hab hba
  rw [lexLt_asymm hab] at hba; cases hba

theorem strict_map {T : Table} (h : StrictSorted T) {f : KV → KV} (hf : ∀ kv, (f kv).1 = kv.1) :
    StrictSorted (T.map f) :=
  List.pairwise_map.2 (List.Pairwise.imp (fun hab => by rw [hf, hf]; exact hab) h)

theorem valueOf_some {T : Table} {k v : Bytes} (h : valueOf T k = some v) : (k, v) ∈ T := by
  unfold valueOf at h
  obtain ⟨⟨k', v'⟩, h1, rfl⟩ := Option.map_eq_some_iff.1 h
  have h2 := List.find?_some h1
  simp only [beq_iff_eq] at h2
  subst h2
  exact List.mem_of_find?_eq_some h1

theorem valueOf_eq_none {T : Table} {k : Bytes} (h : valueOf T k = none) (v : Bytes) : (k, v) ∉ T := by
  intro hm
  unfold valueOf at h
  rw [Option.map_eq_none_iff, List.find?_eq_none] at h
  exact h _ hm (by simp)

theorem passes_keyOnly {f : KV → Verdict} (h : KeyOnly f) (k v v' : Bytes) : passes f (k, v) = passes f (k, v') := by
  unfold passes; rw [h k v v']

theorem Good.keys {f : KV → Verdict} (hK : KeyOnly f) {T U : Table} (h : Good f (passes f) T)
    (hs : ∀ k v, (k, v) ∈ U → ∃ v', (k, v') ∈ T) : Good f (passes f) U := by
  rintro ⟨k, v⟩ hkv
  obtain ⟨v', hv'⟩ := hs k v hkv
  have := h _ hv'
  rw [hK k v' v] at this
  have e : ∀ x ∈ U, passes f x = true → ∃ y ∈ T, y.1 = x.1 ∧ passes f y = true := by
    rintro ⟨a, b⟩ hx hp
    obtain ⟨b', hb⟩ := hs a b hx
    exact ⟨_, hb, rfl, by rw [passes_keyOnly hK a b' b]; exact hp⟩
  cases hf : f (k, v) with
  | pass => simp [passes, hf]
  | drop => simp [passes, hf]
  | seekTo k' =>
    simp only [hf] at this ⊢
    refine ⟨by simp [passes, hf], this.2.1, fun x hx h1 h2 => ?_⟩
    cases hp : passes f x with
    | false => rfl
    | true =>
      obtain ⟨y, hy, e1, e2⟩ := e x hx hp
      rw [this.2.2 y hy (by rw [e1]; exact h1) (by rw [e1]; exact h2)] at e2; cases e2
  | stop =>
    simp only [hf] at this ⊢
    intro x hx h1
    cases hp : passes f x with
    | false => rfl
    | true =>
      obtain ⟨y, hy, e1, e2⟩ := e x hx hp
      rw [this y hy (by rw [e1]; exact h1)] at e2; cases e2
  | fault e => simp only [hf] at this

theorem GoodSeq.keys {fs : List Filt} (hK : ∀ f ∈ fs, KeyOnly f.2) {T U : Table} (h : GoodSeq fs T)
    (hs : ∀ k v, (k, v) ∈ U → ∃ v', (k, v') ∈ T) : GoodSeq fs U := by
  induction fs generalizing T U with
  | nil => trivial
  | cons f fs ih =>
    refine ⟨h.1.keys (hK f List.mem_cons_self) hs, ih (fun g hg => hK g (List.mem_cons_of_mem _ hg)) h.2 ?_⟩
    intro k v hkv
    obtain ⟨h1, h2⟩ := List.mem_filter.1 hkv
    obtain ⟨v', hv'⟩ := hs k v h1
    exact ⟨v', List.mem_filter.2 ⟨hv', by rw [passes_keyOnly (hK f List.mem_cons_self) k v' v]; exact h2⟩⟩

theorem chosen_perm (ds : List (Fence × Src)) :
    (ds.map (·.2)).Perm (chosen .keep ds ++ chosen .fill ds ++ chosen .remove ds) := by
  induction ds with
  | nil => exact .refl _
  | cons x ds ih =>
    obtain ⟨d, f⟩ := x
    cases d with
    | keep => exact List.Perm.cons _ ih
    | fill =>
      have := (List.Perm.cons f ih).trans
        ((List.perm_middle (a := f) (l₁ := chosen .keep ds) (l₂ := chosen .fill ds)).symm.append_right (chosen .remove ds))
      exact this
    | remove =>
      exact (List.Perm.cons f ih).trans
        (List.perm_middle (a := f) (l₁ := chosen .keep ds ++ chosen .fill ds) (l₂ := chosen .remove ds)).symm

theorem mem_chosen {d : Fence} {ds : List (Fence × Src)} {f : Src} (h : f ∈ chosen d ds) : (d, f) ∈ ds := by
  obtain ⟨⟨d', f'⟩, h1, rfl⟩ := List.mem_map.1 h
  obtain ⟨h2, h3⟩ := List.mem_filter.1 h1
  simp only [beq_iff_eq] at h3
  subst h3; exact h2

/-! ## The sources of an aggregated query over a file set -/

/-- What is known of the three groups of files. -/
structure Groups (b : Bounds) (files K L R : List Src) : Prop where
  perm : files.Perm (K ++ L ++ R)
  kept : ∀ f ∈ K, FileOk b .keep f
  fill : ∀ f ∈ L, FileOk b .fill f
  rm : ∀ f ∈ R, FileOk b .remove f

theorem fenced_groups {files : List Src} (h : ∀ f ∈ files, TruthfulFile f) {b : Bounds} {env : FsEnv} {w : World}
    {F : Fenced} (hF : fencedFiles b env w files = .ok F) :
    ∃ K L, Groups b files K L F.removed ∧ aggregated env.pickKept (K.map (·.rows)) = .ok F.kept ∧
      aggregated env.pickFill (L.map (·.rows)) = .ok F.fill := by
  obtain ⟨ds, h1, h2, h3⟩ := fenceAll_spec h b w
  unfold fencedFiles at hF
  rw [h1, Out.ok_bind] at hF
  cases hk : aggregated env.pickKept ((chosen .keep ds).map (·.rows)) with
  | fail => rw [hk] at hF; cases hF
  | fault e => rw [hk] at hF; cases hF
  | ok kept =>
  rw [hk, Out.ok_bind] at hF
  cases hl : aggregated env.pickFill ((chosen .fill ds).map (·.rows)) with
  | fail => rw [hl] at hF; cases hF
  | fault e => rw [hl] at hF; cases hF
  | ok fill =>
  rw [hl, Out.ok_bind] at hF
  cases hF
  refine ⟨_, _, ⟨?_, fun f hf => h3 _ (mem_chosen hf), fun f hf => h3 _ (mem_chosen hf), fun f hf => h3 _ (mem_chosen hf)⟩, hk, hl⟩
  rw [← h2]; exact chosen_perm ds

section
variable {b : Bounds} {k : Bytes}

theorem FileOk.obsKey {d : Fence} {K : List Src} (h : ∀ f ∈ K, FileOk b d f) (hk : k.head? = some 0 ∨ k.head? = some 2) :
    ObsKey k (K.map (·.rows)) := by
  intro v hv
  obtain ⟨t, ht, hm⟩ := mem_valuesOf.1 hv
  obtain ⟨f, hf, rfl⟩ := List.mem_map.1 ht
  obtain ⟨o, ho, e, -⟩ := (h f hf).2 k v hm hk
  exact ⟨o, ho, e⟩

theorem FileOk.obs {d : Fence} {K : List Src} (h : ∀ f ∈ K, FileOk b d f) (hk : k.head? = some 0 ∨ k.head? = some 2) :
    ∀ o ∈ obsAt k (K.map (·.rows)), (d = .remove → Failing b o) ∧ (d = .fill → Lacking b o) := by
  intro o ho
  obtain ⟨v, hv, rfl⟩ := List.mem_map.1 ho
  obtain ⟨t, ht, hm⟩ := mem_valuesOf.1 hv
  obtain ⟨f, hf, rfl⟩ := List.mem_map.1 ht
  obtain ⟨o, ho, e, h'⟩ := (h f hf).2 k v hm hk
  rw [e, obsIn_value ho]; exact h'

theorem FileOk.sorted {d : Fence} {K : List Src} (h : ∀ f ∈ K, FileOk b d f) : ∀ t ∈ K.map (·.rows), Sorted t := by
  intro t ht
  obtain ⟨f, hf, rfl⟩ := List.mem_map.1 ht
  exact (h f hf).1

theorem obsAt_nil_iff {K : List Src} : obsAt k (K.map (·.rows)) = [] ↔ ¬ K.any (fun r => hasKey r.rows k) = true := by
  rw [List.any_eq_true, obsAt, List.map_eq_nil_iff]
  constructor
  · rintro h ⟨r, hr, hk⟩
    obtain ⟨⟨k', v⟩, hm, rfl⟩ := hasKey_iff.1 hk
    have : v ∈ valuesOf k' (K.map (·.rows)) := mem_valuesOf.2 ⟨_, List.mem_map.2 ⟨r, hr, rfl⟩, hm⟩
    rw [h] at this; cases this
  · intro h
    rw [List.eq_nil_iff_forall_not_mem]
    intro v hv
    obtain ⟨t, ht, hm⟩ := mem_valuesOf.1 hv
    obtain ⟨f, hf, rfl⟩ := List.mem_map.1 ht
    exact h ⟨f, hf, hasKey_iff.2 ⟨_, hm, rfl⟩⟩

end

theorem timed_head {x : Rec} (h : timed x = true) : x.key.head? = some 0 ∨ x.key.head? = some 2 := by
  cases x with
  | rrset r o => exact .inl rfl
  | rr r o => exact .inr rfl
  | _ => cases h

/-- The merge function where it succeeds. -/
def combined (k v b : Bytes) : Bytes :=
  match mergeFunc k v b with
  | .ok x => x
  | _ => []

theorem offers_fileset {files : List Src} (hf : ∀ f ∈ files, TruthfulFile f) {q : Query} {env : FsEnv} {w : World}
    {F : Fenced} (hF : fencedFiles q.bounds env w files = .ok F) {pick : List Table → Nat} {Us : List Rec}
    (hU : aggregated pick (files.map (·.rows)) = .ok (rowsOf Us)) :
    Offers Us q (filesetSources q.bounds env F) := by
  intro p V hK hG hT
  obtain ⟨K, L, hGr, hk, hl⟩ := fenced_groups hf hF
  have hfs : ∀ t ∈ files.map (·.rows), Sorted t := by
    intro t ht
    obtain ⟨f, hf', rfl⟩ := List.mem_map.1 ht
    obtain ⟨Ts, hr, hS, -⟩ := hf f hf'
    rw [hr]; exact hS.sorted
  obtain ⟨sK, mK, -⟩ := Props.C48_view _ _ (FileOk.sorted hGr.kept) _ hk
  obtain ⟨sL, mL, -⟩ := Props.C48_view _ _ (FileOk.sorted hGr.fill) _ hl
  obtain ⟨sU, mU, -⟩ := Props.C48_view _ _ hfs _ hU
  have hperm : (files.map (·.rows)).Perm (K.map (·.rows) ++ L.map (·.rows) ++ F.removed.map (·.rows)) := by
    rw [← List.map_append, ← List.map_append]; exact hGr.perm.map _
  have mKU : ∀ k v, (k, v) ∈ F.kept → ∃ v', (k, v') ∈ rowsOf Us := by
    intro k v h
    obtain ⟨t, ht, v', hv'⟩ := (mK k).1 ⟨v, h⟩
    exact (mU k).2 ⟨t, hperm.mem_iff.2 (by simp [ht]), v', hv'⟩
  have head : ∀ k v, (k, v) ∈ rowsOf Us → inView V k = true → k.head? = some 0 ∨ k.head? = some 2 := by
    intro k v h hv
    obtain ⟨x, hx, e⟩ := List.mem_map.1 h
    cases e
    exact timed_head (hT x hx hv)
  have rowK : ∀ k v, (k.head? = some 0 ∨ k.head? = some 2) → ((k, v) ∈ F.kept ↔ obsAt k (K.map (·.rows)) ≠ [] ∧
      v = (aggObs (obsAt k (K.map (·.rows)))).value) := fun k v h =>
    aggregated_obs (FileOk.sorted hGr.kept) hk h (FileOk.obsKey hGr.kept h) v
  have rowL : ∀ k v, (k.head? = some 0 ∨ k.head? = some 2) → ((k, v) ∈ F.fill ↔ obsAt k (L.map (·.rows)) ≠ [] ∧
      v = (aggObs (obsAt k (L.map (·.rows)))).value) := fun k v h =>
    aggregated_obs (FileOk.sorted hGr.fill) hl h (FileOk.obsKey hGr.fill h) v
  have legK : ∀ k, (k.head? = some 0 ∨ k.head? = some 2) → (aggObs (obsAt k (K.map (·.rows)))).legal := fun k h =>
    aggObs_legal (obsAt_legal (FileOk.obsKey hGr.kept h))
  have legL : ∀ k, (k.head? = some 0 ∨ k.head? = some 2) → (aggObs (obsAt k (L.map (·.rows)))).legal := fun k h =>
    aggObs_legal (obsAt_legal (FileOk.obsKey hGr.fill h))
  have legKL : ∀ k, (k.head? = some 0 ∨ k.head? = some 2) →
      (aggObs (obsAt k (K.map (·.rows)) ++ obsAt k (L.map (·.rows)))).legal := fun k h =>
    aggObs_legal fun o ho => (List.mem_append.1 ho).elim (obsAt_legal (FileOk.obsKey hGr.kept h) o)
      (obsAt_legal (FileOk.obsKey hGr.fill h) o)
  have rowU : ∀ k v, (k.head? = some 0 ∨ k.head? = some 2) → ((k, v) ∈ rowsOf Us ↔
      obsAt k (K.map (·.rows)) ++ obsAt k (L.map (·.rows)) ++ obsAt k (F.removed.map (·.rows)) ≠ [] ∧
      v = (aggObs (obsAt k (K.map (·.rows)) ++ obsAt k (L.map (·.rows)) ++ obsAt k (F.removed.map (·.rows)))).value) := by
    intro k v h
    rw [aggregated_obs hfs hU h (by
      intro v hv
      obtain ⟨t, ht, hm⟩ := mem_valuesOf.1 hv
      have := hperm.mem_iff.1 ht
      rw [List.mem_append, List.mem_append] at this
      rcases this with (this | this) | this
      · exact FileOk.obsKey hGr.kept h v (mem_valuesOf.2 ⟨t, this, hm⟩)
      · exact FileOk.obsKey hGr.fill h v (mem_valuesOf.2 ⟨t, this, hm⟩)
      · exact FileOk.obsKey hGr.rm h v (mem_valuesOf.2 ⟨t, this, hm⟩))]
    have hp := obsAt_perm k hperm
    rw [obsAt_append, obsAt_append] at hp
    rw [aggObs_perm hp]
    constructor
    · rintro ⟨h1, h2⟩
      exact ⟨fun h => h1 (by rw [h] at hp; exact hp.eq_nil), h2⟩
    · rintro ⟨h1, h2⟩
      exact ⟨fun h => h1 (by rw [h] at hp; exact hp.symm.eq_nil), h2⟩
  have obsL : ∀ k, (k.head? = some 0 ∨ k.head? = some 2) → ∀ o ∈ obsAt k (L.map (·.rows)), Lacking q.bounds o :=
    fun k h o ho => (FileOk.obs hGr.fill h o ho).2 rfl
  have obsR : ∀ k, (k.head? = some 0 ∨ k.head? = some 2) → ∀ o ∈ obsAt k (F.removed.map (·.rows)), Failing q.bounds o :=
    fun k h o ho => (FileOk.obs hGr.rm h o ho).1 rfl
  have fpass : ∀ k v v', (p.onSource.all fun f => passes f.2 (k, v)) = p.onSource.all fun f => passes f.2 (k, v') := by
    intro k v v'
    rw [Bool.eq_iff_iff, List.all_eq_true, List.all_eq_true]
    exact ⟨fun h f hf => by rw [passes_keyOnly (hK f hf) k v' v]; exact h f hf,
      fun h f hf => by rw [passes_keyOnly (hK f hf) k v v']; exact h f hf⟩
  have e : (Us.filter fun x => inView V x.key &&
        ((p.onSource.all fun f => passes f.2 x.row) && timePass q.bounds x.row)).map Rec.row =
      (rowsIn (rowsOf Us) V).filter (fun kv => (p.onSource.all fun f => passes f.2 kv) && timePass q.bounds kv) := by
    rw [rowsIn, List.filter_filter, rowsOf, filter_rows]
    congr 1
    apply List.filter_congr
    intro x hx
    rw [Bool.and_comm]; rfl
  rw [e]
  have hI : Impl (curM F.kept env.seekKept) false V (rowsIn F.kept V) := impl_cur sK.toSorted _ V
  have hG' : GoodSeq p.onSource (rowsIn F.kept V) := hG.keys hK (by
    intro k v h
    obtain ⟨h1, h2⟩ := List.mem_filter.1 h
    obtain ⟨v', hv'⟩ := mKU k v h1
    exact ⟨v', List.mem_filter.2 ⟨hv', h2⟩⟩)
  have hS0 : Sorted (rowsIn F.kept V) := sK.toSorted.filter _
  have h1 := impl_filters (impl_withTimeout (q := q) hI) hS0 hG'
  unfold coreM filesetSources withTimes
  simp only
  by_cases hb : q.bounds.any = true
  · rw [if_pos hb, if_pos hb]
    have mem1 : ∀ k v, (k, v) ∈ (rowsIn F.kept V).filter (fun kv => p.onSource.all fun f => passes f.2 kv) →
        inView V k = true ∧ (k.head? = some 0 ∨ k.head? = some 2) ∧ obsAt k (K.map (·.rows)) ≠ [] ∧
        v = (aggObs (obsAt k (K.map (·.rows)))).value := by
      intro k v h
      obtain ⟨h, -⟩ := List.mem_filter.1 h
      obtain ⟨h, hv⟩ := List.mem_filter.1 h
      obtain ⟨v', hv'⟩ := mKU k v h
      have hh := head k v' hv' hv
      exact ⟨hv, hh, (rowK k v hh).1 h⟩
    generalize hU1 : (rowsIn F.kept V).filter (fun kv => p.onSource.all fun f => passes f.2 kv) = U1 at h1 mem1
    have s1 : StrictSorted U1 := by
      rw [← hU1]; exact sK.sublist (List.filter_sublist.trans List.filter_sublist)
    have h2 := impl_filter h1 s1.toSorted (good_verdictOf (m := fun kv => timeMatch q.bounds true kv.2) (by
      rintro ⟨k, v⟩ hkv
      obtain ⟨-, hh, -, e⟩ := mem1 k v hkv
      exact ⟨_, by rw [e]; exact timeMatch_preBounds (legK k hh) _⟩)) .filterTimePrefilter
    change Impl (filterM .filterTimePrefilter (pureF (filterTime q.bounds true)) _) _ _
      (U1.filter (passes (filterTime q.bounds true))) at h2
    generalize hU2 : U1.filter (passes (filterTime q.bounds true)) = U2 at h2
    have s2 : StrictSorted U2 := by rw [← hU2]; exact s1.sublist List.filter_sublist
    have mem2 : ∀ kv, kv ∈ U2 ↔ kv ∈ U1 ∧ preBounds q.bounds (aggObs (obsAt kv.1 (K.map (·.rows)))) = true := by
      rintro ⟨k, v⟩
      rw [← hU2, List.mem_filter, passes_filterTime]
      constructor
      · rintro ⟨h, h'⟩
        obtain ⟨-, hh, -, e⟩ := mem1 k v h
        simp only [e, timeMatch_preBounds (legK k hh), decide_eq_true_eq] at h'
        exact ⟨h, Out.ok.inj h'⟩
      · rintro ⟨h, h'⟩
        obtain ⟨-, hh, -, e⟩ := mem1 k v h
        simp only [e, timeMatch_preBounds (legK k hh), decide_eq_true_eq]
        exact ⟨e ▸ h, congrArg _ h'⟩
    have view2 : ∀ x ∈ U2, inView V x.1 = true := fun x hx => (mem1 x.1 x.2 ((mem2 x).1 hx).1).1
    have h3 : Impl (withRemove (if q.bounds.any && (q.bounds.firstAfter.isSome || q.bounds.lastBefore.isSome)
          then some F.removed else none) (filterM .filterTimePrefilter (pureF (filterTime q.bounds true))
            (withFilters p.onSource (withTimeout q (curM F.kept env.seekKept))))) q.lim.active V
        (U2.filter fun kv => !F.removed.any fun r => hasKey r.rows kv.1) := by
      by_cases hs : (q.bounds.any && (q.bounds.firstAfter.isSome || q.bounds.lastBefore.isSome)) = true
      · rw [if_pos hs]
        exact impl_remove h2 (fun r hr => (hGr.rm r hr).1) view2
      · rw [if_neg hs]
        have : U2.filter (fun kv => !F.removed.any fun r => hasKey r.rows kv.1) = U2 := by
          rw [List.filter_eq_self]
          rintro ⟨k, v⟩ hkv
          obtain ⟨-, hh, -⟩ := mem1 k v ((mem2 _).1 hkv).1
          have nR : obsAt k (F.removed.map (·.rows)) = [] := by
            rw [List.eq_nil_iff_forall_not_mem]
            intro o ho
            rcases obsR k hh o ho with ⟨x, hx, -⟩ | ⟨x, hx, -⟩ <;> simp [hb, hx] at hs
          have := obsAt_nil_iff.1 nR
          simpa using this
        rw [this]; exact h2
    generalize hU3 : U2.filter (fun kv => !F.removed.any fun r => hasKey r.rows kv.1) = U3 at h3
    have s3 : StrictSorted U3 := by rw [← hU3]; exact s2.sublist List.filter_sublist
    have mem3 : ∀ kv, kv ∈ U3 ↔ kv ∈ U2 ∧ obsAt kv.1 (F.removed.map (·.rows)) = [] := by
      intro kv
      rw [← hU3, List.mem_filter, obsAt_nil_iff, Bool.not_eq_true, Bool.not_eq_true']
    have mem3' : ∀ k v, (k, v) ∈ U3 → (k.head? = some 0 ∨ k.head? = some 2) ∧ obsAt k (K.map (·.rows)) ≠ [] ∧
        v = (aggObs (obsAt k (K.map (·.rows)))).value :=
      fun k v h => (mem1 k v ((mem2 _).1 ((mem3 _).1 h).1).1).2
    have hmg : ∀ k, (k.head? = some 0 ∨ k.head? = some 2) → obsAt k (K.map (·.rows)) ≠ [] → obsAt k (L.map (·.rows)) ≠ [] →
        mergeFunc k (aggObs (obsAt k (K.map (·.rows)))).value (aggObs (obsAt k (L.map (·.rows)))).value =
        .ok (aggObs (obsAt k (K.map (·.rows)) ++ obsAt k (L.map (·.rows)))).value := by
      intro k hh n1 n2
      rw [Props.mergeFunc_triplet_value k hh (legK k hh) (legL k hh), aggObs_append n1 n2]
    have h4 := impl_ljoin h3 (B := F.fill) sL.toSorted env.seekFill (merge := mergeFunc) (combine := combined) (by
      rintro ⟨k, v⟩ hx ⟨k', v'⟩ hb' e
      simp only at e; subst e
      obtain ⟨hh, n1, rfl⟩ := mem3' k' v hx
      obtain ⟨n2, rfl⟩ := (rowL k' v' hh).1 hb'
      simp only [combined, hmg k' hh n1 n2]) (fun x hx => view2 x ((mem3 x).1 hx).1)
    have hj : ∀ k v, (k, v) ∈ U3 → joined combined F.fill (k, v) =
        (k, (aggObs (obsAt k (K.map (·.rows)) ++ obsAt k (L.map (·.rows)))).value) := by
      intro k v h
      obtain ⟨hh, n1, rfl⟩ := mem3' k v h
      unfold joined
      simp only
      cases hv : valueOf F.fill k with
      | none =>
        have nL : obsAt k (L.map (·.rows)) = [] :=
          Classical.byContradiction fun hn => valueOf_eq_none hv _ ((rowL k _ hh).2 ⟨hn, rfl⟩)
        rw [nL, List.append_nil]
      | some u =>
        obtain ⟨n2, rfl⟩ := (rowL k u hh).1 (valueOf_some hv)
        simp only [combined, hmg k hh n1 n2]
    have s4 : StrictSorted (U3.map (joined combined F.fill)) := strict_map s3 (joined_fst _ _)
    have h5 := impl_filter h4 s4.toSorted (good_verdictOf (m := fun kv => timeMatch q.bounds false kv.2) (by
      rintro kv hkv
      obtain ⟨⟨k, v⟩, h, rfl⟩ := List.mem_map.1 hkv
      obtain ⟨hh, -⟩ := mem3' k v h
      rw [hj k v h]
      exact ⟨_, timeMatch_value (legKL k hh) _⟩)) .filterTime
    change Impl (filterM .filterTime (pureF (filterTime q.bounds false)) _) _ _
      ((U3.map (joined combined F.fill)).filter (passes (filterTime q.bounds false))) at h5
    have : (U3.map (joined combined F.fill)).filter (passes (filterTime q.bounds false)) =
        (rowsIn (rowsOf Us) V).filter (fun kv => (p.onSource.all fun f => passes f.2 kv) && timePass q.bounds kv) := by
      apply strict_ext (s4.sublist List.filter_sublist) (sU.sublist (List.filter_sublist.trans List.filter_sublist))
      rintro ⟨k, v⟩
      have tp : ∀ o : Obs, o.legal → (timePass q.bounds (k, o.value) = inBounds q.bounds o ∧
          passes (filterTime q.bounds false) (k, o.value) = inBounds q.bounds o) := by
        intro o ho
        unfold timePass
        rw [hb, passes_filterTime]
        simp [timeMatch_value ho]
      constructor
      · intro h
        obtain ⟨h, hp⟩ := List.mem_filter.1 h
        obtain ⟨⟨k', a⟩, h3', e⟩ := List.mem_map.1 h
        rw [hj k' a h3'] at e
        cases e
        obtain ⟨hh, n1, ha⟩ := mem3' k a h3'
        have g3 := (mem3 _).1 h3'
        have g2 := (mem2 _).1 g3.1
        have g1 := g2.1
        rw [← hU1] at g1
        obtain ⟨g0, gp⟩ := List.mem_filter.1 g1
        rw [(tp _ (legKL k hh)).2] at hp
        refine List.mem_filter.2 ⟨List.mem_filter.2 ⟨(rowU k _ hh).2 ⟨?_, ?_⟩, (List.mem_filter.1 g0).2⟩, ?_⟩
        · simp [n1]
        · rw [show obsAt k (F.removed.map (·.rows)) = [] from g3.2, List.append_nil]
        · rw [fpass k _ a, gp, Bool.true_and, (tp _ (legKL k hh)).1]; exact hp
      · intro h
        obtain ⟨h, hp⟩ := List.mem_filter.1 h
        obtain ⟨h, hv⟩ := List.mem_filter.1 h
        have hh := head k v h hv
        obtain ⟨hne, e⟩ := (rowU k v hh).1 h
        rw [Bool.and_eq_true] at hp
        obtain ⟨hp, ht⟩ := hp
        have hall : (aggObs (obsAt k (K.map (·.rows)) ++ obsAt k (L.map (·.rows)) ++
            obsAt k (F.removed.map (·.rows)))).legal := by
          refine aggObs_legal fun o ho => ?_
          rw [List.mem_append, List.mem_append] at ho
          rcases ho with (ho | ho) | ho
          · exact obsAt_legal (FileOk.obsKey hGr.kept hh) o ho
          · exact obsAt_legal (FileOk.obsKey hGr.fill hh) o ho
          · exact obsAt_legal (FileOk.obsKey hGr.rm hh) o ho
        rw [e, (tp _ hall).1] at ht
        obtain ⟨r0, n1, hpre⟩ := split_bounds (obsR k hh) (obsL k hh) hne ht
        rw [r0, List.append_nil] at e ht
        have hK0 := (rowK k _ hh).2 ⟨n1, rfl⟩
        have g1 : (k, (aggObs (obsAt k (K.map (·.rows)))).value) ∈ U1 := by
          rw [← hU1]
          exact List.mem_filter.2 ⟨List.mem_filter.2 ⟨hK0, hv⟩, by rw [fpass k _ v]; exact hp⟩
        have g3 := (mem3 _).2 ⟨(mem2 _).2 ⟨g1, hpre⟩, r0⟩
        refine List.mem_filter.2 ⟨List.mem_map.2 ⟨_, g3, ?_⟩, ?_⟩
        · rw [hj k _ g3, e]
        · rw [e, (tp _ (legKL k hh)).2]; exact ht
    rw [← this]; exact h5
  · rw [if_neg hb, if_neg hb]
    rw [show ∀ M, withFill none M = M from fun _ => rfl]
    have : (rowsIn F.kept V).filter (fun kv => p.onSource.all fun f => passes f.2 kv) =
        (rowsIn (rowsOf Us) V).filter (fun kv => (p.onSource.all fun f => passes f.2 kv) && timePass q.bounds kv) := by
      apply strict_ext (sK.sublist (List.filter_sublist.trans List.filter_sublist))
        (sU.sublist (List.filter_sublist.trans List.filter_sublist))
      rintro ⟨k, v⟩
      simp only [List.mem_filter, timePass, hb, Bool.not_false, Bool.true_or, Bool.and_true]
      by_cases hv : inView V k = true
      · by_cases hm : ∃ v, (k, v) ∈ rowsOf Us
        · obtain ⟨v', hm⟩ := hm
          have hh := head k v' hm hv
          rw [rowK k v hh, rowU k v hh]
          have nL : obsAt k (L.map (·.rows)) = [] := by
            rw [List.eq_nil_iff_forall_not_mem]
            intro o ho
            rcases obsL k hh o ho with ⟨x, hx, -⟩ | ⟨-, x, hx, -⟩ <;> simp [Bounds.any, hx] at hb
          have nR : obsAt k (F.removed.map (·.rows)) = [] := by
            rw [List.eq_nil_iff_forall_not_mem]
            intro o ho
            rcases obsR k hh o ho with ⟨x, hx, -⟩ | ⟨x, hx, -⟩ <;> simp [Bounds.any, hx] at hb
          rw [nL, nR, List.append_nil, List.append_nil]
        · have : (k, v) ∉ F.kept := fun h => hm (mKU k v h)
          have h2 : (k, v) ∉ rowsOf Us := fun h => hm ⟨v, h⟩
          simp [this, h2]
      · simp [hv]
    rw [← this]; exact h1

end Verif
