import Verif.Spec.Metadata
import Verif.Props.Unaggregated

/-! # Lemmas: queries for time ranges and versions -/

namespace Verif
open Spec

/-! ## Sources without bounds on times -/

theorem fence_none {f : Src} {Ts : List Rec} (hr : f.rows = rowsOf Ts) (hS : Stored Ts) (w : World) :
    fence {} f w = .ok .keep := by
  obtain ⟨d, h, rfl | ⟨m, M, -, rfl⟩⟩ := fence_spec hr hS {} w <;> exact h

theorem fenceAll_none {ws : List Nat} {files : List Src} {recs : Src → List Rec} (hf : ∀ f ∈ files, FileOf ws f (recs f))
    (w : World) : fenceAll {} w files = .ok (files.map fun f => (.keep, f)) := by
  induction files with
  | nil => rfl
  | cons f fs ih =>
    rw [fenceAll, fence_none (hf f List.mem_cons_self).rows (hf f List.mem_cons_self).stored, Out.ok_bind,
      ih fun g hg => hf g (List.mem_cons_of_mem _ hg)]
    rfl

theorem chosen_keep (files : List Src) : chosen .keep (files.map fun f => (Fence.keep, f)) = files := by
  induction files with
  | nil => rfl
  | cons f fs ih =>
    unfold chosen at ih ⊢
    rw [List.map_cons, List.filter_cons, if_pos (by rfl), List.map_cons, ih]

theorem chosen_other {d : Fence} (hd : d ≠ .keep) (files : List Src) : chosen d (files.map fun f => (Fence.keep, f)) = [] := by
  unfold chosen
  rw [List.filter_eq_nil_iff.2, List.map_nil]
  intro x hx
  obtain ⟨f, -, rfl⟩ := List.mem_map.1 hx
  simpa using fun h => hd h.symm

/-- The rows of all files are merged. -/
theorem fencedFiles_none {ws : List Nat} {files : List Src} {recs : Src → List Rec} (hws : ws.length ≤ 30)
    (hf : ∀ f ∈ files, FileOf ws f (recs f)) (env : FsEnv) (w : World) :
    ∃ Xs, fencedFiles {} env w files = .ok ⟨rowsOf Xs, [], []⟩ ∧ Stored Xs ∧
      aggregated env.pickKept (files.map (·.rows)) = .ok (rowsOf Xs) := by
  obtain ⟨Xs, x1, x2, -⟩ := aggregated_recs hws (fun f h => ⟨(hf f h).rows, (hf f h).stored, (hf f h).mergeable⟩) env.pickKept
  refine ⟨Xs, ?_, x2, x1⟩
  rw [fencedFiles, fenceAll_none hf, Out.ok_bind, chosen_keep, x1, Out.ok_bind, chosen_other (by decide), chosen_other (by decide)]
  rfl

/-- The rows of all files are read. -/
theorem looseFiles_none {ws : List Nat} {files : List Src} {recs : Src → List Rec} (hU : LooseFiles ws files recs)
    (env : FsEnv) (w w' : World) :
    ∃ Xs Vs, looseFiles {} env w w' files = .ok ⟨rowsOf Xs, rowsOf Vs⟩ ∧ Stored Xs ∧ Stored Vs ∧
      Vs.Perm (files.flatMap recs) ∧ Vs.Pairwise RecLe := by
  obtain ⟨Xs, x1, x2, -⟩ := aggregated_recs hU.small
    (fun f h => ⟨(hU.file f h).rows, (hU.file f h).stored, (hU.file f h).mergeable⟩) env.pickKept
  obtain ⟨Vs, v1, v2, v3, v4⟩ := unaggregated_recs (fun f h => ⟨(hU.file f h).rows, (hU.file f h).stored⟩) hU.strict env.pickFill
  refine ⟨Xs, Vs, ?_, x2, v2, v3, v4⟩
  rw [looseFiles, fenceAll_none hU.file, Out.ok_bind, chosen_keep, x1, Out.ok_bind, fenceAll_none hU.file, Out.ok_bind, chosen_keep,
    v1, Out.ok_bind]

/-! ## The queries -/

/-- A query without filters delivers the records whose keys begin as it says. -/
theorem plain_prefix {Vs : List Rec} (hS : Stored Vs) (sf : View → Bytes → Bool) (I : Mach) {q : Query} {pre : Bytes}
    (hi : initKind q = .ok { view := .pfx pre }) (hb : q.bounds = {}) {want : Rec → Bool}
    (hw : ∀ x ∈ Vs, pre.isPrefixOf x.key = want x) :
    DeliversFrom ⟨curM (rowsOf Vs) sf, I, none, none⟩ q (Vs.filter want) := by
  refine ⟨_, hi, fun ls w ho hl => ?_⟩
  have hb' : q.bounds.any = false := by rw [hb]; rfl
  have h1 := stored_core (q := q) (p := { view := .pfx pre }) (V := .pfx pre) hS sf I trivial (fun h => by rw [hb'] at h; cases h)
  have e : (Vs.filter fun x => inView (.pfx pre) x.key &&
      ((([] : List Filt).all fun f => passes f.2 x.row) && timePass q.bounds x.row)) = Vs.filter want := by
    apply List.filter_congr
    intro x hx
    have : timePass q.bounds x.row = true := by unfold timePass; rw [hb']; rfl
    rw [this, ← hw x hx]
    show (pre.isPrefixOf x.key && (true && true)) = _
    simp
  change Impl _ _ _ (List.map _ (Vs.filter fun x => inView (.pfx pre) x.key &&
      ((([] : List Filt).all fun f => passes f.2 x.row) && timePass q.bounds x.row))) at h1
  rw [e] at h1
  have hleg : ∀ x ∈ Vs.filter want, x.legal := fun x hx => hS.legal x (List.mem_filter.1 hx).1
  have h2 := (query_direct (p := { view := .pfx pre }) rfl h1 (safeRows_rows hleg) ls hl ho).1
  rw [← List.map_drop, filterMap_rows (fun x hx => hleg x (List.mem_of_mem_drop hx))] at h2
  exact h2

theorem initKind_timeRange {q : Query} (h : AsksTimeRange q) : initKind q = .ok { view := .pfx [254] } := by
  unfold initKind
  rw [h.1]

theorem initKind_version {q : Query} {kind : Option UInt8} (h : AsksVersion kind q) :
    initKind q = .ok { view := .pfx (255 :: kind.toList) } := by
  unfold initKind
  rw [h.1, h.2.2.1]
  cases kind with
  | none => rfl
  | some t => rw [h.2.2.2 t rfl]; rfl

theorem prefix_timeRange (x : Rec) : [254].isPrefixOf x.key = isTimeRange x := by
  cases x <;> simp [Rec.key, RRset.key, RR.key, fwdIndexKey, revIndexKey, isTimeRange, List.isPrefixOf]

theorem prefix_version (kind : Option UInt8) (x : Rec) : (255 :: kind.toList).isPrefixOf x.key = isVersion kind x := by
  cases kind <;>
    cases x <;> simp [Rec.key, RRset.key, RR.key, fwdIndexKey, revIndexKey, isVersion, List.isPrefixOf]

/-! ## The aggregated view -/

/-- Values of a tree that are all encodings come from a tree of what they encode. -/
theorem tree_lift {α : Type} {f : α → Bytes} {P : α → Prop} (t : Spec.MTree Bytes) (h : ∀ v ∈ t.leaves, ∃ a, P a ∧ f a = v) :
    ∃ u : Spec.MTree α, u.map f = t ∧ ∀ a ∈ u.leaves, P a := by
  induction t with
  | leaf v =>
    obtain ⟨a, ha, rfl⟩ := h v (by simp [MTree.leaves])
    exact ⟨.leaf a, rfl, by simpa [MTree.leaves] using ha⟩
  | node l r ihl ihr =>
    obtain ⟨u, hu, h1⟩ := ihl fun v hv => h v (by simp [MTree.leaves, hv])
    obtain ⟨u', hu', h2⟩ := ihr fun v hv => h v (by simp [MTree.leaves, hv])
    refine ⟨.node u u', by rw [MTree.map, hu, hu'], fun a ha => ?_⟩
    rcases List.mem_append.1 ha with ha | ha
    · exact h1 a ha
    · exact h2 a ha

theorem leaves_map {α β : Type} (f : α → β) (t : Spec.MTree α) : (t.map f).leaves = t.leaves.map f := by
  induction t with
  | leaf a => rfl
  | node l r ihl ihr => simp only [MTree.map, MTree.leaves, ihl, ihr, List.map_append]

section
variable {ws : List Nat} {files : List Src} {recs : Src → List Rec} {pick : List Table → Nat} {Xs : List Rec}

theorem row_of_files (hf : ∀ f ∈ files, FileOf ws f (recs f)) {kv : KV} :
    (∃ t ∈ files.map (·.rows), kv ∈ t) ↔ ∃ x ∈ files.flatMap recs, x.legal ∧ x.row = kv := by
  constructor
  · rintro ⟨t, ht, h⟩
    obtain ⟨f, h1, rfl⟩ := List.mem_map.1 ht
    have e : f.rows = rowsOf (recs f) := (hf f h1).rows
    simp only [e] at h
    obtain ⟨x, hx, rfl⟩ := List.mem_map.1 h
    exact ⟨x, List.mem_flatMap.2 ⟨f, h1, hx⟩, (hf f h1).stored.legal x hx, rfl⟩
  · rintro ⟨x, hx, -, rfl⟩
    obtain ⟨f, h1, hx⟩ := List.mem_flatMap.1 hx
    exact ⟨f.rows, List.mem_map.2 ⟨f, h1, rfl⟩, by rw [(hf f h1).rows]; exact List.mem_map.2 ⟨x, hx, rfl⟩⟩

theorem files_sorted (hf : ∀ f ∈ files, FileOf ws f (recs f)) : ∀ t ∈ files.map (·.rows), Sorted t := by
  intro t ht
  obtain ⟨f, h, rfl⟩ := List.mem_map.1 ht
  rw [(hf f h).rows]; exact (hf f h).stored.sorted

theorem timeRange_of_key {x : Rec} (h : x.key = [254]) : ∃ a b, x = .timeRange a b := by
  cases x <;> simp [Rec.key, RRset.key, RR.key, fwdIndexKey, revIndexKey] at h ⊢

theorem version_of_key {x : Rec} {t : UInt8} (h : x.key = [255, t]) : ∃ v, x = .version t v := by
  cases x <;> simp [Rec.key, RRset.key, RR.key, fwdIndexKey, revIndexKey] at h ⊢
  exact h

theorem pair_inj {a b a' b' : Nat} (h1 : a < 2 ^ 64) (h2 : b < 2 ^ 64) (h3 : a' < 2 ^ 64) (h4 : b' < 2 ^ 64)
    (h : pairPack a b = pairPack a' b') : a = a' ∧ b = b' := by
  have e1 := pairUnpack_pack h1 h2
  have e2 := pairUnpack_pack h3 h4
  rw [h, e2] at e1
  cases e1
  exact ⟨rfl, rfl⟩

/-- The time range of the aggregated view. -/
theorem view_span (hf : ∀ f ∈ files, FileOf ws f (recs f)) (hv : aggregated pick (files.map (·.rows)) = .ok (rowsOf Xs))
    (hX : Stored Xs) (a b : Nat) : Rec.timeRange a b ∈ Xs ↔ Spans (files.flatMap recs) a b := by
  obtain ⟨-, h1, h2⟩ := Props.C48_view pick _ (files_sorted hf) _ hv
  have key : ∀ a b, Rec.timeRange a b ∈ Xs → Spans (files.flatMap recs) a b := by
    intro a b hab
    obtain ⟨t, t1, t2⟩ := h2 [254] (leb a ++ leb b) (List.mem_map.2 ⟨_, hab, rfl⟩)
    obtain ⟨la, lb⟩ := hX.legal _ hab
    have hmem : ∀ v, v ∈ t.leaves ↔ ∃ a b, Rec.timeRange a b ∈ files.flatMap recs ∧ a < 2 ^ 64 ∧ b < 2 ^ 64 ∧ v = pairPack a b := by
      intro v
      rw [t1.mem_iff, mem_valuesOf, row_of_files hf]
      constructor
      · rintro ⟨x, hx, hl, e⟩
        obtain ⟨a', b', rfl⟩ := timeRange_of_key (congrArg Prod.fst e)
        exact ⟨a', b', hx, hl.1, hl.2, by rw [pairPack_eq]; exact (congrArg Prod.snd e).symm⟩
      · rintro ⟨a', b', hx, l1, l2, rfl⟩
        exact ⟨_, hx, ⟨l1, l2⟩, by rw [pairPack_eq]; rfl⟩
    obtain ⟨u, rfl, hu⟩ := tree_lift (f := rangeValue)
      (P := fun o => ∃ p : Nat × Nat, o = some p ∧ Rec.timeRange p.1 p.2 ∈ files.flatMap recs ∧ p.1 < 2 ^ 64 ∧ p.2 < 2 ^ 64) t (by
      intro v hv
      obtain ⟨a', b', h1, h2, h3, rfl⟩ := (hmem v).1 hv
      exact ⟨some (a', b'), ⟨(a', b'), rfl, h1, h2, h3⟩, rfl⟩)
    have hu' : ∀ p, some p ∈ u.leaves → Rec.timeRange p.1 p.2 ∈ files.flatMap recs ∧ p.1 < 2 ^ 64 ∧ p.2 < 2 ^ 64 := by
      intro p hp
      obtain ⟨p', e, h⟩ := hu _ hp
      cases e
      exact h
    obtain ⟨m, M, c1, c2, ⟨p, c3, rfl⟩, ⟨p', c4, rfl⟩⟩ := (Props.C06_merge_time_range u (fun p hp => (hu' p hp).2)).2 (by
      intro hn
      obtain ⟨p, e, -⟩ := hu _ hn
      cases e)
    rw [t2] at c1
    obtain ⟨p1, p2, p3⟩ := hu' p c3
    obtain ⟨q1, q2, q3⟩ := hu' p' c4
    have e : pairPack a b = pairPack p.1 p'.2 := by rw [pairPack_eq]; exact Out.ok.inj c1
    obtain ⟨rfl, rfl⟩ := pair_inj la lb p2 q3 e
    refine ⟨⟨_, p1⟩, ⟨_, q1⟩, fun a' b' h => ?_⟩
    have hl : a' < 2 ^ 64 ∧ b' < 2 ^ 64 := by
      obtain ⟨f, g1, g2⟩ := List.mem_flatMap.1 h
      exact (hf f g1).stored.legal _ g2
    have := (hmem (pairPack a' b')).2 ⟨a', b', h, hl.1, hl.2, rfl⟩
    rw [leaves_map] at this
    obtain ⟨o, g1, g2⟩ := List.mem_map.1 this
    obtain ⟨r, rfl, -, g3, g4⟩ := hu o g1
    obtain ⟨rfl, rfl⟩ := pair_inj g3 g4 hl.1 hl.2 g2
    exact c2 r g1
  refine ⟨key a b, fun h => ?_⟩
  obtain ⟨b', hb'⟩ := h.1
  obtain ⟨f, g1, g2⟩ := List.mem_flatMap.1 hb'
  obtain ⟨v, hv⟩ := (h1 [254]).2 ⟨f.rows, List.mem_map.2 ⟨f, g1, rfl⟩, _, by
    rw [(hf f g1).rows]; exact List.mem_map.2 ⟨_, g2, rfl⟩⟩
  obtain ⟨x, hx, e⟩ := List.mem_map.1 hv
  obtain ⟨a', b'', rfl⟩ := timeRange_of_key (congrArg Prod.fst e)
  obtain ⟨⟨_, k1⟩, ⟨_, k2⟩, k3⟩ := key _ _ hx
  obtain ⟨⟨_, j1⟩, ⟨_, j2⟩, j3⟩ := h
  have e1 : a' = a := Nat.le_antisymm (k3 _ _ j1).1 (j3 _ _ k1).1
  have e2 : b'' = b := Nat.le_antisymm (j3 _ _ k2).2 (k3 _ _ j2).2
  rw [← e1, ← e2]
  exact hx

/-- The versions of the aggregated view. -/
theorem view_version (hf : ∀ f ∈ files, FileOf ws f (recs f)) (hv : aggregated pick (files.map (·.rows)) = .ok (rowsOf Xs))
    (hX : Stored Xs) (k : UInt8) (v : Nat) : Rec.version k v ∈ Xs ↔ LeastVersion (files.flatMap recs) k v := by
  obtain ⟨-, h1, h2⟩ := Props.C48_view pick _ (files_sorted hf) _ hv
  have key : ∀ v, Rec.version k v ∈ Xs → LeastVersion (files.flatMap recs) k v := by
    intro v hab
    obtain ⟨t, t1, t2⟩ := h2 [255, k] (leb v) (List.mem_map.2 ⟨_, hab, rfl⟩)
    have la : v < 2 ^ 32 := hX.legal _ hab
    have hmem : ∀ v, v ∈ t.leaves ↔ ∃ a, Rec.version k a ∈ files.flatMap recs ∧ a < 2 ^ 32 ∧ v = varintEncode32 a := by
      intro v
      rw [t1.mem_iff, mem_valuesOf, row_of_files hf]
      constructor
      · rintro ⟨x, hx, hl, e⟩
        obtain ⟨a', rfl⟩ := version_of_key (congrArg Prod.fst e)
        exact ⟨a', hx, hl, by rw [encode32_eq_leb hl]; exact (congrArg Prod.snd e).symm⟩
      · rintro ⟨a', hx, l1, rfl⟩
        exact ⟨_, hx, l1, by rw [encode32_eq_leb l1]; rfl⟩
    have hk : k.toNat ≤ 3 := by
      obtain ⟨v', hv'⟩ : ∃ v', v' ∈ t.leaves := List.exists_mem_of_ne_nil _ t.leaves_ne_nil
      obtain ⟨a, ha, -⟩ := (hmem v').1 hv'
      obtain ⟨f, g1, g2⟩ := List.mem_flatMap.1 ha
      exact (hf f g1).mergeable _ g2
    obtain ⟨u, rfl, hu⟩ := tree_lift (f := versionValue)
      (P := fun o => ∃ p : Nat, o = some p ∧ Rec.version k p ∈ files.flatMap recs ∧ p < 2 ^ 32) t (by
      intro v hv
      obtain ⟨a', h1, h2, rfl⟩ := (hmem v).1 hv
      exact ⟨some a', ⟨a', rfl, h1, h2⟩, rfl⟩)
    have hu' : ∀ p, some p ∈ u.leaves → Rec.version k p ∈ files.flatMap recs ∧ p < 2 ^ 32 := by
      intro p hp
      obtain ⟨p', e, h⟩ := hu _ hp
      cases e
      exact h
    obtain ⟨m, c1, c2, c3⟩ := (Props.C06_merge_version k hk u (fun p hp => (hu' p hp).2)).2 (by
      intro hn
      obtain ⟨p, e, -⟩ := hu _ hn
      cases e)
    rw [t2] at c1
    obtain ⟨p1, p2⟩ := hu' m c2
    have inj : ∀ {x y : Nat}, x < 2 ^ 32 → y < 2 ^ 32 → varintEncode32 x = varintEncode32 y → x = y := by
      intro x y hx hy e
      rw [encode32_eq_leb hx, encode32_eq_leb hy] at e
      have e1 := decode32_leb hx []
      have e2 := decode32_leb hy []
      rw [e, e2] at e1
      cases e1; rfl
    obtain rfl := inj la p2 (by rw [encode32_eq_leb la]; exact Out.ok.inj c1)
    refine ⟨p1, fun v' h => ?_⟩
    have hl : v' < 2 ^ 32 := by
      obtain ⟨f, g1, g2⟩ := List.mem_flatMap.1 h
      exact (hf f g1).stored.legal _ g2
    have := (hmem (varintEncode32 v')).2 ⟨v', h, hl, rfl⟩
    rw [leaves_map] at this
    obtain ⟨o, g1, g2⟩ := List.mem_map.1 this
    obtain ⟨r, rfl, -, g3⟩ := hu o g1
    obtain rfl := inj g3 hl g2
    exact c3 r g1
  refine ⟨key v, fun h => ?_⟩
  obtain ⟨f, g1, g2⟩ := List.mem_flatMap.1 h.1
  obtain ⟨w, hw⟩ := (h1 [255, k]).2 ⟨f.rows, List.mem_map.2 ⟨f, g1, rfl⟩, _, by
    rw [(hf f g1).rows]; exact List.mem_map.2 ⟨_, g2, rfl⟩⟩
  obtain ⟨x, hx, e⟩ := List.mem_map.1 hw
  obtain ⟨v', rfl⟩ := version_of_key (congrArg Prod.fst e)
  have := key _ hx
  have e1 : v' = v := Nat.le_antisymm (this.2 _ h.1) (h.2 _ this.1)
  rw [← e1]
  exact hx

/-- Records in strict order of their keys are determined by which there are. -/
theorem recs_ext {Xs Ys : List Rec} (hX : Xs.Pairwise fun x y => lexLt x.key y.key = true)
    (hY : Ys.Pairwise fun x y => lexLt x.key y.key = true) (h : ∀ x, x ∈ Xs ↔ x ∈ Ys) : Xs = Ys := by
  have nodup : ∀ {T : List Rec}, T.Pairwise (fun x y => lexLt x.key y.key = true) → T.Nodup := by
    intro T h
    exact h.imp fun {a b} hab e => by rw [e, lexLt_irrefl] at hab; cases hab
  refine List.Perm.eq_of_pairwise (le := fun (a b : Rec) => lexLt a.key b.key = true) ?_ hX hY
    ((List.perm_ext_iff_of_nodup (nodup hX) (nodup hY)).mpr h)
  intro a b _ _ hab hba
  rw [lexLt_asymm hab] at hba; cases hba

theorem view_strict (hf : ∀ f ∈ files, FileOf ws f (recs f)) (hv : aggregated pick (files.map (·.rows)) = .ok (rowsOf Xs)) :
    Xs.Pairwise fun x y => lexLt x.key y.key = true :=
  List.pairwise_map.1 (Props.C48_view pick _ (files_sorted hf) _ hv).1

/-- The same time ranges, however the files are merged. -/
theorem views_timeRange {Ys : List Rec} {pick' : List Table → Nat} (hf : ∀ f ∈ files, FileOf ws f (recs f))
    (hv : aggregated pick (files.map (·.rows)) = .ok (rowsOf Xs)) (hX : Stored Xs)
    (hv' : aggregated pick' (files.map (·.rows)) = .ok (rowsOf Ys)) (hY : Stored Ys) :
    Xs.filter isTimeRange = Ys.filter isTimeRange := by
  refine recs_ext ((view_strict hf hv).filter _) ((view_strict hf hv').filter _) fun x => ?_
  rw [List.mem_filter, List.mem_filter]
  cases x <;> simp only [isTimeRange, Bool.false_eq_true, and_false, and_true]
  rw [view_span hf hv hX, view_span hf hv' hY]

/-- The same versions. -/
theorem views_version {Ys : List Rec} {pick' : List Table → Nat} (hf : ∀ f ∈ files, FileOf ws f (recs f))
    (hv : aggregated pick (files.map (·.rows)) = .ok (rowsOf Xs)) (hX : Stored Xs)
    (hv' : aggregated pick' (files.map (·.rows)) = .ok (rowsOf Ys)) (hY : Stored Ys) (kind : Option UInt8) :
    Xs.filter (isVersion kind) = Ys.filter (isVersion kind) := by
  refine recs_ext ((view_strict hf hv).filter _) ((view_strict hf hv').filter _) fun x => ?_
  rw [List.mem_filter, List.mem_filter]
  cases x <;> simp only [isVersion, Bool.false_eq_true, and_false]
  rw [view_version hf hv hX, view_version hf hv' hY]

end

end Verif
