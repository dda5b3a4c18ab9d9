import Verif.Lemmas.Fileset
import Verif.Lemmas.Keys
import Verif.Props.Entry

/-! # Lemmas: aggregated records and index entries -/

namespace Verif
open Spec

/-- All types in the set of `x` are in the set of `z` (no set: all types). -/
def Covers (z x : Rec) : Prop :=
  ∀ s, typesOf z = some s → ∃ u, typesOf x = some u ∧ ∀ t, u.has t = true → s.has t = true

theorem Covers.refl (x : Rec) : Covers x x := fun s h => ⟨s, h, fun _ h => h⟩

theorem Covers.trans {x y z : Rec} (h : Covers z y) (h' : Covers y x) : Covers z x := by
  intro s hs
  obtain ⟨u, hu, h1⟩ := h s hs
  obtain ⟨v, hv, h2⟩ := h' u hu
  exact ⟨v, hv, fun t ht => h1 t (h2 t ht)⟩

theorem covers_none {z x : Rec} (h : typesOf z = none) : Covers z x := by
  intro s hs; rw [h] at hs; cases hs

theorem index_merge {ws : List Nat} (hws : ws.length ≤ 30) {k : Bytes} (hk : k.head? = some 1 ∨ k.head? = some 3)
    {s u : Option TypeSet} (hs : ∀ t, s = some t → t.wf) (hu : ∀ t, u = some t → t.wf)
    (ms : ∀ x, s = some x → (∃ t, x.has t = true) ∧ x.has 0 = false ∧ ∀ t, x.has t = true → t / 256 ∈ ws)
    (mu : ∀ x, u = some x → (∃ t, x.has t = true) ∧ x.has 0 = false ∧ ∀ t, x.has t = true → t / 256 ∈ ws) :
    ∃ v, mergeFunc k (Rec.setBytes s) (Rec.setBytes u) = .ok (Rec.setBytes v) ∧ (∀ t, v = some t → t.wf) ∧
      (∀ x, v = some x → (∃ t, x.has t = true) ∧ x.has 0 = false ∧ ∀ t, x.has t = true → t / 256 ∈ ws) ∧
      ∀ x, v = some x → ∃ a b, s = some a ∧ u = some b ∧ ∀ t, x.has t = (a.has t || b.has t) := by
  cases s with
  | none => exact ⟨none, (Props.C07_merge_empty_absorbs k hk _).1, by simp, by simp, by simp⟩
  | some a =>
    cases u with
    | none => exact ⟨none, (Props.C07_merge_empty_absorbs k hk _).2, by simp, by simp, by simp⟩
    | some b =>
      obtain ⟨⟨ta, ha⟩, za, wa⟩ := ms a rfl
      obtain ⟨-, zb, wb⟩ := mu b rfl
      have hx : ∃ t, t < 65536 ∧ a.has t = false ∧ b.has t = false := ⟨0, by decide, za, zb⟩
      obtain ⟨v, hv⟩ := Props.C09_merge_succeeds_partial k hk a b (hs a rfl) (hu b rfl) hx ws hws
        (fun t h => h.elim (wa t) (wb t))
      obtain ⟨x, hx1, rfl, hx2⟩ := Props.C07_merge_is_union k hk a b (hs a rfl) (hu b rfl) ⟨ta, ha⟩ hx v hv
      refine ⟨some x, hv, ?_, ?_, ?_⟩
      · rintro _ ⟨⟩; exact hx1
      · rintro _ ⟨⟩
        refine ⟨⟨ta, by rw [hx2, ha]; rfl⟩, by rw [hx2, za, zb]; rfl, fun t ht => ?_⟩
        rw [hx2, Bool.or_eq_true] at ht
        exact ht.elim (wa t) (wb t)
      · rintro _ ⟨⟩; exact ⟨a, b, rfl, rfl, hx2⟩

/-- Merging two records of the same key gives a record of that key. -/
theorem merge_recs {ws : List Nat} (hws : ws.length ≤ 30) {x y : Rec} (hx : x.legal) (hy : y.legal)
    (mx : Mergeable ws x) (my : Mergeable ws y) (hk : x.key = y.key) :
    ∃ z : Rec, z.legal ∧ Mergeable ws z ∧ z.key = x.key ∧ mergeFunc x.key x.value y.value = .ok z.value ∧
      Covers z x ∧ Covers z y := by
  have hh : x.key.head? = y.key.head? := by rw [hk]
  cases x with
  | rrset r o =>
    cases y <;> simp [Rec.key, RRset.key, RR.key, fwdIndexKey, revIndexKey] at hh
    rename_i r' o'
    refine ⟨.rrset r ⟨min o.first o'.first, max o.last o'.last, (o.count + o'.count) % 2 ^ 64⟩, ⟨hx.1, ?_⟩, trivial, rfl,
      Props.mergeFunc_triplet_value _ (.inl rfl) hx.2 hy.2, covers_none rfl, covers_none rfl⟩
    have a := hx.2; have b := hy.2
    simp only [Obs.legal] at a b ⊢; omega
  | rr r o =>
    cases y <;> simp [Rec.key, RRset.key, RR.key, fwdIndexKey, revIndexKey] at hh
    rename_i r' o'
    refine ⟨.rr r ⟨min o.first o'.first, max o.last o'.last, (o.count + o'.count) % 2 ^ 64⟩, ⟨hx.1, ?_⟩, trivial, rfl,
      Props.mergeFunc_triplet_value _ (.inr rfl) hx.2 hy.2, covers_none rfl, covers_none rfl⟩
    have a := hx.2; have b := hy.2
    simp only [Obs.legal] at a b ⊢; omega
  | fwd n s =>
    cases y <;> simp [Rec.key, RRset.key, RR.key, fwdIndexKey, revIndexKey] at hh
    rename_i n' u
    obtain ⟨v, h1, h2, h3, h4⟩ := index_merge hws (k := (Rec.fwd n s).key) (.inl rfl) hx.2 hy.2
      (fun x e => by subst e; exact mx) (fun x e => by subst e; exact my)
    refine ⟨.fwd n v, ⟨hx.1, h2⟩, ?_, rfl, h1, fun z hz => ?_, fun z hz => ?_⟩
    · cases v with
      | none => trivial
      | some z => exact h3 z rfl
    · obtain ⟨a, b, ha, hb, h⟩ := h4 z hz
      exact ⟨a, ha, fun t ht => by rw [h, ht]; rfl⟩
    · obtain ⟨a, b, ha, hb, h⟩ := h4 z hz
      exact ⟨b, hb, fun t ht => by rw [h, ht, Bool.or_true]⟩
  | rev n s =>
    cases y <;> simp [Rec.key, RRset.key, RR.key, fwdIndexKey, revIndexKey] at hh
    rename_i n' u
    obtain ⟨v, h1, h2, h3, h4⟩ := index_merge hws (k := (Rec.rev n s).key) (.inr rfl) hx.2 hy.2
      (fun x e => by subst e; exact mx) (fun x e => by subst e; exact my)
    refine ⟨.rev n v, ⟨hx.1, h2⟩, ?_, rfl, h1, fun z hz => ?_, fun z hz => ?_⟩
    · cases v with
      | none => trivial
      | some z => exact h3 z rfl
    · obtain ⟨a, b, ha, hb, h⟩ := h4 z hz
      exact ⟨a, ha, fun t ht => by rw [h, ht]; rfl⟩
    · obtain ⟨a, b, ha, hb, h⟩ := h4 z hz
      exact ⟨b, hb, fun t ht => by rw [h, ht, Bool.or_true]⟩
  | timeRange a b =>
    cases y <;> simp [Rec.key, RRset.key, RR.key, fwdIndexKey, revIndexKey] at hh
    rename_i a' b'
    obtain ⟨h1, h2⟩ := hx
    obtain ⟨h3, h4⟩ := hy
    refine ⟨.timeRange (min a a') (max b b'), ⟨by omega, by omega⟩, trivial, rfl, ?_, covers_none rfl, covers_none rfl⟩
    have := mergeTimeRange_pack h1 h2 h3 h4
    simp only [Rec.value, ← pairPack_eq]
    exact this
  | version t v =>
    have hk' := hk
    cases y <;> simp [Rec.key, RRset.key, RR.key, fwdIndexKey, revIndexKey] at hh
    rename_i t' v'
    have e : t = t' := by simp only [Rec.key] at hk'; injection hk' with _ h; injection h
    subst e
    refine ⟨.version t (min v v'), ?_, mx, rfl, ?_, covers_none rfl, covers_none rfl⟩
    · simp only [Rec.legal] at hx hy ⊢; omega
    · have := mergeVersion_pack (vt := t) mx hx hy
      have hm : min v v' < 2 ^ 32 := by simp only [Rec.legal] at hx hy; omega
      rw [encode32_eq_leb hx, encode32_eq_leb hy, encode32_eq_leb hm] at this
      exact this
  | sourceInfo s =>
    cases y <;> simp [Rec.key, RRset.key, RR.key, fwdIndexKey, revIndexKey] at hh
    exact ⟨.sourceInfo s, trivial, trivial, rfl,
      Props.C06_merge_unknown _ _ _ (.inr ⟨253, s, rfl, by decide, by decide, by decide⟩), covers_none rfl, covers_none rfl⟩

theorem mergeFold_recs {ws : List Nat} (hws : ws.length ≤ 30) {ys : List Rec} {x : Rec} (hx : x.legal) (mx : Mergeable ws x)
    (hy : ∀ y ∈ ys, y.legal ∧ Mergeable ws y ∧ y.key = x.key) :
    ∃ z : Rec, z.legal ∧ Mergeable ws z ∧ z.key = x.key ∧ mergeFold x.key x.value (ys.map Rec.value) = .ok z.value ∧
      Covers z x ∧ ∀ y ∈ ys, Covers z y := by
  induction ys generalizing x with
  | nil => exact ⟨x, hx, mx, rfl, rfl, .refl x, by simp⟩
  | cons y ys ih =>
    obtain ⟨ly, my, ky⟩ := hy y List.mem_cons_self
    obtain ⟨z, lz, mz, kz, hz, c1, c2⟩ := merge_recs hws hx ly mx my ky.symm
    obtain ⟨u, lu, mu, ku, hu, c3, c4⟩ := ih lz mz fun w hw => by
      obtain ⟨a, b, c⟩ := hy w (List.mem_cons_of_mem _ hw)
      exact ⟨a, b, c.trans kz.symm⟩
    refine ⟨u, lu, mu, ku.trans kz, ?_, c3.trans c1, fun w hw => ?_⟩
    · rw [List.map_cons, mergeFold, hz, Out.ok_bind, ← kz]; exact hu
    · rcases List.mem_cons.1 hw with rfl | hw
      · exact c3.trans c2
      · exact c4 w hw

theorem perm_map {α β : Type} [DecidableEq α] {f : α → β} {l : List α} {m : List β} (h : (l.map f).Perm m) :
    ∃ l', l.Perm l' ∧ l'.map f = m := by
  induction m generalizing l with
  | nil =>
    have := h.eq_nil
    rw [List.map_eq_nil_iff] at this
    exact ⟨[], by rw [this], rfl⟩
  | cons b m ih =>
    obtain ⟨a, ha, rfl⟩ := List.mem_map.1 (h.mem_iff.2 List.mem_cons_self)
    have hp := List.perm_cons_erase ha
    obtain ⟨l', h1, h2⟩ := ih ((List.perm_cons _).1 ((hp.map f).symm.trans h))
    exact ⟨a :: l', hp.trans (h1.cons a), by rw [List.map_cons, h2]⟩

theorem mergeGroups_recs {gs : List Group} {P : Group → Rec → Prop}
    (h : ∀ g ∈ gs, ∃ z : Rec, P g z ∧ z.key = g.key ∧ mergeFold g.key g.first g.rest = .ok z.value) :
    ∃ Us, mergeGroups gs = .ok (rowsOf Us) ∧ ∀ z ∈ Us, ∃ g ∈ gs, z.key = g.key ∧ P g z := by
  induction gs with
  | nil => exact ⟨[], rfl, by simp⟩
  | cons g gs ih =>
    obtain ⟨z, hz, hk, hf⟩ := h g List.mem_cons_self
    obtain ⟨Us, h1, h2⟩ := ih fun g' hg' => h g' (List.mem_cons_of_mem _ hg')
    refine ⟨z :: Us, ?_, fun u hu => ?_⟩
    · rw [mergeGroups, hf, Out.ok_bind, h1, Out.ok_bind, ← hk]; rfl
    · rcases List.mem_cons.1 hu with rfl | hu
      · exact ⟨g, List.mem_cons_self, hk, hz⟩
      · obtain ⟨g', hg', hu⟩ := h2 u hu
        exact ⟨g', List.mem_cons_of_mem _ hg', hu⟩

/-- The aggregated view of files of mergeable records is a table of such records, whose type sets have all
types of the merged ones. -/
theorem aggregated_recs {ws : List Nat} (hws : ws.length ≤ 30) {files : List Src} {recs : Src → List Rec}
    (hf : ∀ f ∈ files, f.rows = rowsOf (recs f) ∧ Stored (recs f) ∧ ∀ x ∈ recs f, Mergeable ws x)
    (pick : List Table → Nat) :
    ∃ Us, aggregated pick (files.map (·.rows)) = .ok (rowsOf Us) ∧ Stored Us ∧ (∀ z ∈ Us, Mergeable ws z) ∧
      ∀ z ∈ Us, ∀ f ∈ files, ∀ x ∈ recs f, x.key = z.key → Covers z x := by
  have hs : ∀ t ∈ files.map (·.rows), Sorted t := by
    intro t ht
    obtain ⟨f, h, rfl⟩ := List.mem_map.1 ht
    rw [(hf f h).1]; exact (hf f h).2.1.sorted
  obtain ⟨gs, h1, h2, h3⟩ := mergerRows_spec pick _ _ hs (Nat.lt_succ_self _)
  have e : (files.map (·.rows)).flatten = (files.flatMap recs).map Rec.row := by
    clear hs h1 h3
    induction files with
    | nil => rfl
    | cons f fs ih =>
      rw [List.map_cons, List.flatten_cons, List.flatMap_cons, List.map_append,
        ih fun g hg => hf g (List.mem_cons_of_mem _ hg), (hf f List.mem_cons_self).1]
      rfl
  have hR : ∀ x ∈ files.flatMap recs, x.legal ∧ Mergeable ws x := by
    intro x hx
    obtain ⟨f, h, hx⟩ := List.mem_flatMap.1 hx
    exact ⟨(hf f h).2.1.legal x hx, (hf f h).2.2 x hx⟩
  obtain ⟨R, hR1, hR2⟩ := perm_map (e ▸ h1)
  obtain ⟨Us, u1, u2⟩ := mergeGroups_recs (gs := gs)
    (P := fun g z => z.legal ∧ Mergeable ws z ∧ ∀ x ∈ files.flatMap recs, x.key = g.key → Covers z x) (by
    intro g hg
    have v := group_values h2 hg
    rw [← hR2, filter_rows, List.map_map] at v
    generalize hys : R.filter (fun x => (Rec.row x).1 == g.key) = ys at v
    have hm : ∀ y, y ∈ ys ↔ y ∈ files.flatMap recs ∧ y.key = g.key := by
      intro y
      rw [← hys, List.mem_filter, hR1.mem_iff]
      simp [Rec.row]
    cases ys with
    | nil => cases v
    | cons x ys =>
      obtain ⟨hx, kx⟩ := (hm x).1 List.mem_cons_self
      obtain ⟨z, lz, mz, kz, hz, c1, c2⟩ := mergeFold_recs hws (hR x hx).1 (hR x hx).2 (ys := ys) (by
        intro y hy
        obtain ⟨h, ky⟩ := (hm y).1 (List.mem_cons_of_mem _ hy)
        exact ⟨(hR y h).1, (hR y h).2, ky.trans kx.symm⟩)
      refine ⟨z, ⟨lz, mz, fun y hy ky => ?_⟩, kz.trans kx, ?_⟩
      · rcases List.mem_cons.1 ((hm y).2 ⟨hy, ky⟩) with rfl | h
        · exact c1
        · exact c2 y h
      · rw [List.map_cons] at v
        injection v with v1 v2
        rw [← kx, ← v1, ← v2]; exact hz)
  have ha : aggregated pick (files.map (·.rows)) = .ok (rowsOf Us) := by rw [aggregated, h3, u1]
  refine ⟨Us, ha, ⟨fun z hz => ?_, ?_⟩, fun z hz => ?_, fun z hz f h x hx ek => ?_⟩
  · obtain ⟨g, -, -, hp⟩ := u2 z hz; exact hp.1
  · exact (Props.C48_view _ _ hs _ ha).1.toSorted
  · obtain ⟨g, -, -, hp⟩ := u2 z hz; exact hp.2.1
  · obtain ⟨g, -, kg, hp⟩ := u2 z hz
    exact hp.2.2 x (List.mem_flatMap.2 ⟨f, h, hx⟩) (ek.trans kg)

theorem Spec.FileOf.truthfulFile {ws : List Nat} {f : Src} {Ts : List Rec} (h : FileOf ws f Ts) : TruthfulFile f :=
  ⟨Ts, h.rows, h.stored, h.truthful⟩

/-- The files can be sorted into groups, and those can be merged. -/
theorem fenced_total {ws : List Nat} (hws : ws.length ≤ 30) {files : List Src} {recs : Src → List Rec}
    (hf : ∀ f ∈ files, FileOf ws f (recs f)) (b : Bounds) (env : FsEnv) (w : World) :
    ∃ F K L Xs, fencedFiles b env w files = .ok F ∧ Groups b files K L F.removed ∧ F.kept = rowsOf Xs ∧ Stored Xs ∧
      aggregated env.pickKept (K.map (·.rows)) = .ok (rowsOf Xs) ∧
      ∀ z ∈ Xs, ∀ f ∈ K, ∀ x ∈ recs f, x.key = z.key → Covers z x := by
  obtain ⟨ds, h1, h2, h3⟩ := fenceAll_spec (fun f h => (hf f h).truthfulFile) b w
  have sub : ∀ d, ∀ f ∈ chosen d ds, f.rows = rowsOf (recs f) ∧ Stored (recs f) ∧ ∀ x ∈ recs f, Mergeable ws x := by
    intro d f h
    have : f ∈ files := by rw [← h2]; exact List.mem_map.2 ⟨_, mem_chosen h, rfl⟩
    exact ⟨(hf f this).rows, (hf f this).stored, (hf f this).mergeable⟩
  obtain ⟨Xs, x1, x2, -, x4⟩ := aggregated_recs hws (sub .keep) env.pickKept
  obtain ⟨Ys, y1, -⟩ := aggregated_recs hws (sub .fill) env.pickFill
  refine ⟨⟨rowsOf Xs, rowsOf Ys, chosen .remove ds⟩, chosen .keep ds, chosen .fill ds, Xs, ?_, ⟨?_, fun f hf => h3 _ (mem_chosen hf),
    fun f hf => h3 _ (mem_chosen hf), fun f hf => h3 _ (mem_chosen hf)⟩, rfl, x2, x1, x4⟩
  · rw [fencedFiles, h1, Out.ok_bind, x1, Out.ok_bind, y1, Out.ok_bind]
  · rw [← h2]; exact chosen_perm ds

/-- A key whose aggregated observations are within the bounds occurs in a kept file. -/
theorem kept_has {b : Bounds} {files K L R : List Src} (hG : Groups b files K L R) {pick : List Table → Nat} {T : Table}
    (hT : aggregated pick (files.map (·.rows)) = .ok T) {k : Bytes} {o : Obs} (hk : k.head? = some 0 ∨ k.head? = some 2)
    (ho : o.legal) (hm : (k, o.value) ∈ T) (hb : inBounds b o = true) : ∃ f ∈ K, ∃ v, (k, v) ∈ f.rows := by
  have hperm : (files.map (·.rows)).Perm (K.map (·.rows) ++ L.map (·.rows) ++ R.map (·.rows)) := by
    rw [← List.map_append, ← List.map_append]; exact hG.perm.map _
  have hok : ∀ t ∈ files.map (·.rows), t ∈ K.map (·.rows) ∨ t ∈ L.map (·.rows) ∨ t ∈ R.map (·.rows) := by
    intro t ht
    have := hperm.mem_iff.1 ht
    rw [List.mem_append, List.mem_append, or_assoc] at this
    exact this
  have hs : ∀ t ∈ files.map (·.rows), Sorted t := fun t ht =>
    (hok t ht).elim (FileOk.sorted hG.kept t) fun h => h.elim (FileOk.sorted hG.fill t) (FileOk.sorted hG.rm t)
  have hv : ObsKey k (files.map (·.rows)) := by
    intro v hv
    obtain ⟨t, ht, hm⟩ := mem_valuesOf.1 hv
    rcases hok t ht with h | h | h
    · exact FileOk.obsKey hG.kept hk v (mem_valuesOf.2 ⟨t, h, hm⟩)
    · exact FileOk.obsKey hG.fill hk v (mem_valuesOf.2 ⟨t, h, hm⟩)
    · exact FileOk.obsKey hG.rm hk v (mem_valuesOf.2 ⟨t, h, hm⟩)
  obtain ⟨hne, e⟩ := (aggregated_obs hs hT hk hv _).1 hm
  have e : o = aggObs (obsAt k (files.map (·.rows))) := by
    rw [← obsIn_value ho, e, obsIn_value (aggObs_legal (obsAt_legal hv))]
  have hp := obsAt_perm k hperm
  rw [obsAt_append, obsAt_append] at hp
  rw [e, aggObs_perm hp] at hb
  obtain ⟨-, hA, -⟩ := split_bounds (fun o ho => (FileOk.obs hG.rm hk o ho).1 rfl)
    (fun o ho => (FileOk.obs hG.fill hk o ho).2 rfl) (fun h => hne (by rw [h] at hp; exact hp.eq_nil)) hb
  obtain ⟨a, ha⟩ := List.exists_mem_of_ne_nil _ hA
  obtain ⟨v, hv, -⟩ := List.mem_map.1 ha
  obtain ⟨t, ht, hm⟩ := mem_valuesOf.1 hv
  obtain ⟨f, hf, rfl⟩ := List.mem_map.1 ht
  exact ⟨f, hf, v, hm⟩

theorem names_once {Xs : List Rec} (h : StrictSorted (rowsOf Xs)) {name : Rec → Option Name}
    (hk : ∀ x y n, name x = some n → name y = some n → x.key = y.key) : (Xs.filterMap name).Nodup := by
  have h' := List.pairwise_map.1 h
  refine List.Pairwise.filterMap name ?_ h'
  rintro x y hxy n hn m hm rfl
  have : x.key = y.key := hk x y n hn hm
  have hxy : lexLt x.key y.key = true := hxy
  rw [this, lexLt_irrefl] at hxy; cases hxy

section
variable {ws : List Nat} {files K L R : List Src} {recs : Src → List Rec} {b : Bounds} {Us Xs : List Rec}
  {pick pk : List Table → Nat}

theorem kept_rec (hf : ∀ f ∈ files, FileOf ws f (recs f)) (hG : Groups b files K L R)
    (hU : aggregated pick (files.map (·.rows)) = .ok (rowsOf Us)) (hS : Stored Us) {x : Rec} (hx : x ∈ Us) {o : Obs}
    (ho : obsOf x = some o) (hb : inBounds b o = true) : ∃ f ∈ K, f ∈ files ∧ ∃ y ∈ recs f, y.key = x.key := by
  have hh : x.key.head? = some 0 ∨ x.key.head? = some 2 := by
    cases x <;> simp [obsOf] at ho
    · exact .inl rfl
    · exact .inr rfl
  have hv : x.value = o.value := by
    cases x <;> simp [obsOf] at ho <;> rw [← ho] <;> rfl
  have hm : (x.key, o.value) ∈ rowsOf Us := by rw [← hv]; exact List.mem_map.2 ⟨x, hx, rfl⟩
  obtain ⟨f, hfK, v, hv⟩ := kept_has hG hU hh (obsOf_legal (hS.legal x hx) ho) hm hb
  have hff : f ∈ files := hG.perm.mem_iff.2 (by simp [hfK])
  rw [(hf f hff).rows] at hv
  obtain ⟨y, hy, e⟩ := List.mem_map.1 hv
  exact ⟨f, hfK, hff, y, hy, congrArg Prod.fst e⟩

theorem in_kept (hf : ∀ f ∈ files, FileOf ws f (recs f)) (hG : Groups b files K L R)
    (hX : aggregated pk (K.map (·.rows)) = .ok (rowsOf Xs)) {f : Src} (hfK : f ∈ K) {y : Rec} (hy : y ∈ recs f) :
    ∃ z ∈ Xs, z.key = y.key := by
  have hff : ∀ f ∈ K, f ∈ files := fun f h => hG.perm.mem_iff.2 (by simp [h])
  obtain ⟨v, hv⟩ := ((Props.C48_view pk _ (FileOk.sorted hG.kept) _ hX).2.1 y.key).2
    ⟨f.rows, List.mem_map.2 ⟨f, hfK, rfl⟩, y.value, by
      rw [(hf f (hff f hfK)).rows]; exact List.mem_map.2 ⟨y, hy, rfl⟩⟩
  obtain ⟨z, hz, e⟩ := List.mem_map.1 hv
  exact ⟨z, hz, congrArg Prod.fst e⟩

theorem fwd_of_key {z : Rec} {n : Name} (hz : z.legal) (hn : legalName n) (h : z.key = fwdIndexKey n) :
    ∃ s, z = .fwd n s := by
  cases z <;> simp [Rec.key, RRset.key, RR.key, fwdIndexKey, revIndexKey] at h
  rename_i m s
  exact ⟨s, by rw [(Props.C16_index_key_injective m n hz.1 hn).1 (by simp [fwdIndexKey, h])]⟩

theorem rev_of_key {z : Rec} {n : Name} (hz : z.legal) (hn : legalName n) (h : z.key = revIndexKey n) :
    ∃ s, z = .rev n s := by
  cases z <;> simp [Rec.key, RRset.key, RR.key, fwdIndexKey, revIndexKey] at h
  rename_i m s
  exact ⟨s, by rw [(Props.C16_index_key_injective m n hz.1 hn).2 (by simp [revIndexKey, h])]⟩

theorem rrset_of_key {z : Rec} {r : RRset} (hz : z.legal) (hr : r.legal) (h : z.key = r.key) : ∃ o, z = .rrset r o := by
  cases z with
  | rrset r' o => exact ⟨o, by rw [rrset_key_inj hz.1 hr h]⟩
  | _ => simp [Rec.key, RRset.key, RR.key, fwdIndexKey, revIndexKey] at h

theorem rr_of_key {z : Rec} {r : RR} (hz : z.legal) (hr : r.legal) (h : z.key = r.key) : ∃ o, z = .rr r o := by
  cases z with
  | rr r' o => exact ⟨o, by rw [rr_key_inj hz.1 hr h]⟩
  | _ => simp [Rec.key, RRset.key, RR.key, fwdIndexKey, revIndexKey] at h

/-- Every record of `Us` within the bounds occurs in a kept file. -/
def InKept (b : Bounds) (files K : List Src) (recs : Src → List Rec) (Us : List Rec) : Prop :=
  ∀ x ∈ Us, ∀ o, obsOf x = some o → inBounds b o = true → ∃ f ∈ K, f ∈ files ∧ ∃ y ∈ recs f, y.key = x.key

theorem fwdLists_kept (hf : ∀ f ∈ files, FileOf ws f (recs f)) (hI : ∀ f ∈ files, FwdIndexed (recs f))
    (hG : Groups b files K L R) (hU : InKept b files K recs Us) (hS : Stored Us)
    (hX : aggregated pk (K.map (·.rows)) = .ok (rowsOf Xs)) (hSX : Stored Xs)
    (hC : ∀ z ∈ Xs, ∀ f ∈ K, ∀ x ∈ recs f, x.key = z.key → Covers z x) : FwdLists b Xs Us := by
  have main : ∀ r o, Rec.rrset r o ∈ Us → inBounds b o = true →
      legalName r.owner ∧ ∃ f ∈ K, f ∈ files ∧ (∃ o', Rec.rrset r o' ∈ recs f) ∧ ∃ s, Rec.fwd r.owner s ∈ recs f := by
    intro r o hx hb
    have hr := (hS.legal _ hx).1
    obtain ⟨f, hfK, hff, y, hy, e⟩ := hU _ hx o rfl hb
    obtain ⟨o', rfl⟩ := rrset_of_key ((hf f hff).stored.legal y hy) hr e
    exact ⟨hr.1, f, hfK, hff, ⟨o', hy⟩, (hI f hff).complete r o' hy⟩
  refine ⟨fun r o hx hb => ?_, fun r o s hx hb hs => ?_, ?_⟩
  · obtain ⟨hn, f, hfK, hff, -, s, hs⟩ := main r o hx hb
    obtain ⟨z, hz, e⟩ := in_kept hf hG hX hfK hs
    obtain ⟨s', rfl⟩ := fwd_of_key (hSX.legal z hz) hn e
    exact ⟨s', hz⟩
  · obtain ⟨hn, f, hfK, hff, ⟨o', ho'⟩, s', hs'⟩ := main r o hx hb
    obtain ⟨u, hu, h⟩ := hC _ hs f hfK _ hs' rfl s rfl
    have hu : s' = some u := hu
    subst hu
    exact h _ ((hI f hff).types r o' u ho' hs')
  · refine names_once (Props.C48_view pk _ (FileOk.sorted hG.kept) _ hX).1 ?_
    intro x y n h1 h2
    cases x <;> simp [fwdName] at h1
    cases y <;> simp [fwdName] at h2
    rw [h1, h2]; rfl

theorem revLists_kept {target : RR → Option Name} {ty : Option Nat} (hty : ∀ t, ty = some t → t ∈ nameTypes)
    (hf : ∀ f ∈ files, FileOf ws f (recs f)) (hI : ∀ f ∈ files, RevIndexed target ty (recs f))
    (hR : ∀ f ∈ files, RevComplete target (fun t => nameTypes.contains t && ty.all (· == t)) (recs f))
    (hG : Groups b files K L R) (hU : InKept b files K recs Us) (hS : Stored Us)
    (hX : aggregated pk (K.map (·.rows)) = .ok (rowsOf Xs)) (hSX : Stored Xs)
    (hC : ∀ z ∈ Xs, ∀ f ∈ K, ∀ x ∈ recs f, x.key = z.key → Covers z x) :
    RevLists target ty b Xs Us ∧ ∀ r o n, Rec.rr r o ∈ Us → inBounds b o = true →
      nameTypes.contains r.rrtype = true → ty.all (· == r.rrtype) = true → target r = some n → revListed Xs n = true := by
  have main : ∀ r o n, Rec.rr r o ∈ Us → inBounds b o = true → nameTypes.contains r.rrtype = true →
      ty.all (· == r.rrtype) = true → target r = some n →
      legalName n ∧ ∃ f ∈ K, f ∈ files ∧ (∃ o', Rec.rr r o' ∈ recs f) ∧ ∃ s, Rec.rev n s ∈ recs f := by
    intro r o n hx hb h1 h2 ht
    have hr := (hS.legal _ hx).1
    obtain ⟨f, hfK, hff, y, hy, e⟩ := hU _ hx o rfl hb
    obtain ⟨o', rfl⟩ := rr_of_key ((hf f hff).stored.legal y hy) hr e
    have := hR f hff r o' n hy (by simp only [h1, h2, Bool.and_self]) ht
    rw [revListed, List.any_eq_true] at this
    obtain ⟨z, hz, hn⟩ := this
    cases z <;> simp [revName] at hn
    rename_i m s
    subst hn
    exact ⟨((hf f hff).stored.legal _ hz).1, f, hfK, hff, ⟨o', hy⟩, s, hz⟩
  refine ⟨⟨fun r o n s hx hb h1 h2 hs => ?_, ?_⟩, fun r o n hx hb h1 h2 ht => ?_⟩
  · have hc : nameTypes.contains r.rrtype = true := by simpa using hty _ h1
    obtain ⟨hn, f, hfK, hff, ⟨o', ho'⟩, s', hs'⟩ := main r o n hx hb hc (by simp [h1]) h2
    obtain ⟨u, hu, h⟩ := hC _ hs f hfK _ hs' rfl s rfl
    have hu : s' = some u := hu
    subst hu
    exact h _ ((hI f hff).types r o' n u ho' h1 h2 hs')
  · refine names_once (Props.C48_view pk _ (FileOk.sorted hG.kept) _ hX).1 ?_
    intro x y n h1 h2
    cases x <;> simp [revName] at h1
    cases y <;> simp [revName] at h2
    rw [h1, h2]; rfl
  · obtain ⟨hn, f, hfK, hff, -, s, hs⟩ := main r o n hx hb h1 h2 ht
    obtain ⟨z, hz, e⟩ := in_kept hf hG hX hfK hs
    obtain ⟨s', rfl⟩ := rev_of_key (hSX.legal z hz) hn e
    rw [revListed, List.any_eq_true]
    exact ⟨_, hz, by simp [revName]⟩

end

end Verif
