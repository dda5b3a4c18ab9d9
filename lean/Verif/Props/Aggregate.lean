import Verif.Lemmas.Merger
import Verif.Spec.Aggregate

/-!
# C48: the aggregated view of a set of files
-/

namespace Verif.Props
open Verif Verif.Spec

/-- C09 and C08 over any number of files: if the types of all contributions fall into at most 30 windows
of 256 types, every grouping of the merges delivers a value. -/
theorem C09_merge_many_succeeds_partial (key : Bytes) (hk : key.head? = some 1 ∨ key.head? = some 3)
    (t : MTree (Option (Nat → Bool))) (ws : List Nat) (hws : ws.length ≤ 30)
    (hm : ∀ p, some p ∈ t.leaves →
      (∃ u, u < 65536 ∧ p u = true) ∧ p 0 = false ∧ ∀ u, u < 65536 → p u = true → u / 256 ∈ ws) :
    ∃ v, mergeEval key (t.map indexValue) = .ok v := by
  induction t with
  | leaf x => exact ⟨_, rfl⟩
  | node l r ihl ihr =>
    have subl : ∀ x, x ∈ l.leaves → x ∈ (MTree.node l r).leaves := fun x hx => List.mem_append_left _ hx
    have subr : ∀ x, x ∈ r.leaves → x ∈ (MTree.node l r).leaves := fun x hx => List.mem_append_right _ hx
    obtain ⟨a, ha⟩ := ihl fun p hp => hm p (subl _ hp)
    obtain ⟨b, hb⟩ := ihr fun p hp => hm p (subr _ hp)
    obtain ⟨a1, a2⟩ := indexTree_eval key hk l (fun p hp => (hm p (subl _ hp)).1)
      ⟨0, by decide, fun p hp => (hm p (subl _ hp)).2.1⟩ a ha
    obtain ⟨b1, b2⟩ := indexTree_eval key hk r (fun p hp => (hm p (subr _ hp)).1)
      ⟨0, by decide, fun p hp => (hm p (subr _ hp)).2.1⟩ b hb
    simp only [MTree.map, mergeEval, ha, hb, Out.ok_bind]
    by_cases hl : none ∈ l.leaves
    · rw [a1 hl]; exact ⟨[], (C07_merge_empty_absorbs key hk b).1⟩
    by_cases hr : none ∈ r.leaves
    · rw [b1 hr]; exact ⟨[], (C07_merge_empty_absorbs key hk a).2⟩
    have nonempty : ∀ s : MTree (Option (Nat → Bool)), none ∉ s.leaves →
        (∀ x, x ∈ s.leaves → x ∈ (MTree.node l r).leaves) →
        ∃ u, u < 65536 ∧ (s.leaves.any fun x => x.any (· u)) = true := by
      intro s hs sub
      obtain ⟨x, hx⟩ := List.exists_mem_of_ne_nil _ (MTree.leaves_ne_nil s)
      cases x with
      | none => exact absurd hx hs
      | some p =>
        obtain ⟨u, hu, hp⟩ := (hm p (sub _ hx)).1
        exact ⟨u, hu, List.any_eq_true.mpr ⟨some p, hx, by simpa using hp⟩⟩
    have zero : ∀ s : MTree (Option (Nat → Bool)), (∀ x, x ∈ s.leaves → x ∈ (MTree.node l r).leaves) →
        (s.leaves.any fun x => x.any (· 0)) = false := by
      intro s sub
      rw [List.any_eq_false]
      intro x hx
      cases x with
      | none => simp
      | some p => simpa using (hm p (sub _ hx)).2.1
    have windows : ∀ s : MTree (Option (Nat → Bool)), (∀ x, x ∈ s.leaves → x ∈ (MTree.node l r).leaves) →
        ∀ u, u < 65536 → (s.leaves.any fun x => x.any (· u)) = true → u / 256 ∈ ws := by
      intro s sub u hu h
      obtain ⟨x, hx, h⟩ := List.any_eq_true.mp h
      cases x with
      | none => simp at h
      | some p => exact (hm p (sub _ hx)).2.2 u hu (by simpa using h)
    rw [a2 hl, b2 hr, mergeFunc_index hk,
      mergeBitmaps_writer (nonempty l hl subl) (nonempty r hr subr) ⟨0, by decide, zero l subl, zero r subr⟩, if_pos]
    · exact ⟨_, rfl⟩
    · right
      have := canon_length_windows (ws := ws)
        (p := fun u => (l.leaves.any fun x => x.any (· u)) || (r.leaves.any fun x => x.any (· u)))
        (by
          intro u hu h
          rcases Bool.or_eq_true_iff.mp h with h | h
          · exact windows l subl u hu h
          · exact windows r subr u hu h)
      show _ < 1024
      unfold writerValue
      split
      · split <;> simp
      · omega

/-- Types in windows 0, 1 and 128. -/
example : mergeEval [3] (.node (.leaf [1]) (.node (.leaf [1, 1]) (.leaf [0, 128]))) =
    .ok [0, 1, 0x40, 1, 1, 0x40, 128, 1, 0x80] := by decide +kernel

private theorem mergeFunc_other {k : Bytes} (h0 : ¬ (k.head? = some 0 ∨ k.head? = some 2))
    (h1 : ¬ (k.head? = some 1 ∨ k.head? = some 3)) (h2 : k ≠ [254])
    (h3 : ∀ vt : UInt8, k = [255, vt] → 3 < vt.toNat) (a b : Bytes) : mergeFunc k a b = .ok [] := by
  match k with
  | [] => rfl
  | [t] =>
    simp only [List.head?_cons, Option.some.injEq] at h0 h1
    have h4 : t ≠ 254 := fun e => h2 (by rw [e])
    simp [mergeFunc, etRrset, etRdata, etRrsetNameFwd, etRdataNameRev, etTimeRange, h0, h1, h4]
  | [t, vt] =>
    simp only [List.head?_cons, Option.some.injEq] at h0 h1
    by_cases h5 : t = 255
    · subst h5
      exact C06_merge_unknown _ a b (.inl ⟨vt, rfl, h3 vt rfl⟩)
    · simp [mergeFunc, etRrset, etRdata, etRrsetNameFwd, etRdataNameRev, etVersion, h0, h1, h5]
  | t :: x :: y :: ks =>
    simp only [List.head?_cons, Option.some.injEq] at h0 h1
    simp [mergeFunc, etRrset, etRdata, etRrsetNameFwd, etRdataNameRev, h0, h1]

open Classical in
/-- Values of the form `f x` with `P x` can be replaced by such `x`. -/
private theorem preimage {α : Type} [Inhabited α] {P : α → Prop} {f : α → Bytes} {vs : List Bytes}
    (h : ∀ v ∈ vs, ∃ x, P x ∧ f x = v) :
    ∃ g : Bytes → α, ∀ v ∈ vs, P (g v) ∧ f (g v) = v := by
  refine ⟨fun v => if hv : ∃ x, P x ∧ f x = v then choose hv else default, fun v hv => ?_⟩
  have := h v hv
  simp only [dif_pos this]
  exact choose_spec this

private theorem chain_preimage {α : Type} {f : α → Bytes} {g : Bytes → α} {v : Bytes} {vs : List Bytes}
    (h : ∀ x ∈ v :: vs, f (g x) = x) : (MTree.chain (g v) (vs.map g)).map f = MTree.chain v vs := by
  rw [chain_map, h v List.mem_cons_self, List.map_map]
  congr 1
  conv => rhs; rw [← List.map_id vs]
  exact List.map_congr_left fun x hx => h x (List.mem_cons_of_mem _ hx)

/-- The merge of encoded values delivers, and the same for every order of them. -/
private theorem mergeFold_agrees {ws : List Nat} (hws : ws.length ≤ 30) {k v v' : Bytes} {vs vs' : List Bytes}
    (h : ∀ x ∈ v :: vs, Encoded ws k x) (hp : (v :: vs).Perm (v' :: vs')) :
    ∃ w, mergeFold k v vs = .ok w ∧ mergeFold k v' vs' = .ok w := by
  rw [← mergeEval_chain, ← mergeEval_chain]
  by_cases h0 : k.head? = some 0 ∨ k.head? = some 2
  · obtain ⟨g, hg⟩ := preimage (fun x hx => (h x hx).1 h0)
    have e := chain_preimage (f := fun x : Nat × Nat × Nat => tripletPack x.1 x.2.1 x.2.2) (g := g) (fun x hx => (hg x hx).2)
    have e' := chain_preimage (f := fun x : Nat × Nat × Nat => tripletPack x.1 x.2.1 x.2.2) (g := g) (fun x hx => (hg x (hp.mem_iff.mpr hx)).2)
    have hp' : (MTree.chain (g v) (vs.map g)).leaves.Perm (MTree.chain (g v') (vs'.map g)).leaves := by
      rw [chain_leaves, chain_leaves]; exact hp.map g
    have hb : ∀ x ∈ (MTree.chain (g v) (vs.map g)).leaves, x.1 < 2 ^ 64 ∧ x.2.1 < 2 ^ 64 ∧ x.2.2 < 2 ^ 64 := by
      intro x hx
      rw [chain_leaves] at hx
      obtain ⟨y, hy, rfl⟩ := List.mem_map.mp (show x ∈ (v :: vs).map g from hx)
      exact (hg y hy).1
    obtain ⟨m, M, -, -, h3⟩ := C05_merge_any_grouping k h0 _ hb
    have h4 := C05_merge_order_independent k h0 _ _ hp' hb
    rw [h3] at h4
    rw [e] at h3
    rw [e'] at h4
    exact ⟨_, h3, h4.symm⟩
  by_cases h1 : k.head? = some 1 ∨ k.head? = some 3
  · obtain ⟨g, hg⟩ := preimage (fun x hx => (h x hx).2.1 h1)
    have e := chain_preimage (fun x hx => (hg x hx).2)
    have e' := chain_preimage (fun x hx => (hg x (hp.mem_iff.mpr hx)).2)
    have hb : ∀ p, some p ∈ (v :: vs).map g →
        (∃ t, t < 65536 ∧ p t = true) ∧ p 0 = false ∧ ∀ t, t < 65536 → p t = true → t / 256 ∈ ws := by
      intro p hx
      obtain ⟨y, hy, e⟩ := List.mem_map.mp hx
      exact (hg y hy).1 p e
    have mem : ∀ x, x ∈ (v :: vs).map g ↔ x ∈ (v' :: vs').map g := fun x => (hp.map g).mem_iff
    obtain ⟨w, hw⟩ := C09_merge_many_succeeds_partial k h1 (MTree.chain (g v) (vs.map g)) ws hws
      (by rw [chain_leaves]; exact hb)
    obtain ⟨w', hw'⟩ := C09_merge_many_succeeds_partial k h1 (MTree.chain (g v') (vs'.map g)) ws hws
      (by rw [chain_leaves]; exact fun p hx => hb p ((mem _).mpr hx))
    have := C08_merge_canonical k h1 _ _ (by rw [chain_leaves, chain_leaves]; exact mem)
      (by rw [chain_leaves]; exact fun p hx => (hb p hx).1)
      ⟨0, by decide, by rw [chain_leaves]; exact fun p hx => (hb p hx).2.1⟩ w w' hw hw'
    subst this
    rw [e] at hw
    rw [e'] at hw'
    exact ⟨w, hw, hw'⟩
  by_cases h2 : k = [254]
  · obtain ⟨g, hg⟩ := preimage (fun x hx => (h x hx).2.2.1 h2)
    have e := chain_preimage (fun x hx => (hg x hx).2)
    have e' := chain_preimage (fun x hx => (hg x (hp.mem_iff.mpr hx)).2)
    subst h2
    have mem : ∀ x, x ∈ (v :: vs).map g ↔ x ∈ (v' :: vs').map g := fun x => (hp.map g).mem_iff
    have hb : ∀ p, some p ∈ (v :: vs).map g → p.1 < 2 ^ 64 ∧ p.2 < 2 ^ 64 := by
      intro p hx
      obtain ⟨y, hy, e⟩ := List.mem_map.mp hx
      exact (hg y hy).1 p e
    have r := C06_merge_time_range (MTree.chain (g v) (vs.map g)) (by rw [chain_leaves]; exact hb)
    have r' := C06_merge_time_range (MTree.chain (g v') (vs'.map g))
      (by rw [chain_leaves]; exact fun p hx => hb p ((mem _).mpr hx))
    rw [e, chain_leaves] at r
    rw [e', chain_leaves] at r'
    by_cases hn : none ∈ (v :: vs).map g
    · exact ⟨[], r.1 hn, r'.1 ((mem _).mp hn)⟩
    · obtain ⟨m, M, a1, a2, ⟨p, hp1, rfl⟩, q, hq1, rfl⟩ := r.2 hn
      obtain ⟨m', M', b1, b2, ⟨p', hp1', rfl⟩, q', hq1', rfl⟩ := r'.2 (fun hx => hn ((mem _).mpr hx))
      have e1 : p.1 = p'.1 := Nat.le_antisymm (a2 p' ((mem _).mpr hp1')).1 (b2 p ((mem _).mp hp1)).1
      have e2 : q.2 = q'.2 := Nat.le_antisymm (b2 q ((mem _).mp hq1)).2 (a2 q' ((mem _).mpr hq1')).2
      rw [← e1, ← e2] at b1
      exact ⟨_, a1, b1⟩
  by_cases h3 : ∃ vt : UInt8, k = [255, vt] ∧ vt.toNat ≤ 3
  · obtain ⟨vt, hk, hvt⟩ := h3
    obtain ⟨g, hg⟩ := preimage (fun x hx => (h x hx).2.2.2 vt hk hvt)
    have e := chain_preimage (fun x hx => (hg x hx).2)
    have e' := chain_preimage (fun x hx => (hg x (hp.mem_iff.mpr hx)).2)
    subst hk
    have mem : ∀ x, x ∈ (v :: vs).map g ↔ x ∈ (v' :: vs').map g := fun x => (hp.map g).mem_iff
    have hb : ∀ p, some p ∈ (v :: vs).map g → p < 2 ^ 32 := by
      intro p hx
      obtain ⟨y, hy, e⟩ := List.mem_map.mp hx
      exact (hg y hy).1 p e
    have r := C06_merge_version vt hvt (MTree.chain (g v) (vs.map g)) (by rw [chain_leaves]; exact hb)
    have r' := C06_merge_version vt hvt (MTree.chain (g v') (vs'.map g))
      (by rw [chain_leaves]; exact fun p hx => hb p ((mem _).mpr hx))
    rw [e, chain_leaves] at r
    rw [e', chain_leaves] at r'
    by_cases hn : none ∈ (v :: vs).map g
    · exact ⟨[], r.1 hn, r'.1 ((mem _).mp hn)⟩
    · obtain ⟨m, a1, a2, a3⟩ := r.2 hn
      obtain ⟨m', b1, b2, b3⟩ := r'.2 (fun hx => hn ((mem _).mpr hx))
      have e1 : m = m' := Nat.le_antisymm (a3 m' ((mem _).mpr b2)) (b3 m ((mem _).mp a2))
      rw [← e1] at b1
      exact ⟨_, a1, b1⟩
  · have hf := mergeFunc_other h0 h1 h2 (fun vt hk => Nat.lt_of_not_le fun hle => h3 ⟨vt, hk, hle⟩)
    rw [mergeEval_chain, mergeEval_chain]
    have fold : ∀ (vs : List Bytes) (x : Bytes), mergeFold k x vs = .ok (if vs = [] then x else []) := by
      intro vs
      induction vs with
      | nil => intro x; rfl
      | cons y ys ih =>
        intro x
        rw [mergeFold, hf, Out.ok_bind, ih]
        simp
    rw [fold, fold]
    have hl := hp.length_eq
    cases vs with
    | nil =>
      cases vs' with
      | nil =>
        have := hp.mem_iff (a := v)
        simp at this
        exact ⟨v, rfl, by rw [this]; rfl⟩
      | cons y ys => simp at hl
    | cons x xs =>
      cases vs' with
      | nil => simp at hl
      | cons y ys => exact ⟨[], rfl, rfl⟩

/-- C48: whatever files are opened and in whatever order equal keys are read, an aggregated view that is
delivered contains each key of any file, no other key, each once and in order, with the merge of all
values stored for it (C04 to C08 say what the merges are). -/
theorem C48_view (pick : List Table → Nat) (files : List Table) (hs : ∀ f ∈ files, Sorted f) (T : Table)
    (h : aggregated pick files = .ok T) :
    StrictSorted T ∧
    (∀ k, (∃ v, (k, v) ∈ T) ↔ ∃ f ∈ files, ∃ v, (k, v) ∈ f) ∧
    ∀ k v, (k, v) ∈ T → ∃ t : MTree Bytes, t.leaves.Perm (valuesOf k files) ∧ mergeEval k t = .ok v := by
  obtain ⟨gs, h1, h2, h3⟩ := mergerRows_spec pick _ files hs (Nat.lt_succ_self _)
  rw [aggregated, h3] at h
  obtain ⟨h4, h5⟩ := mergeGroups_ok h
  refine ⟨?_, ?_, ?_⟩
  · have : (gs.map Group.key).Pairwise (fun a b => lexLt a b = true) := List.pairwise_map.mpr h2
    rw [← h4] at this
    exact List.pairwise_map.mp this
  · intro k
    constructor
    · rintro ⟨v, hv⟩
      obtain ⟨g, hg, hk, -⟩ := h5 _ hv
      have : (k, g.first) ∈ files.flatten := by
        rw [h1.mem_iff, List.mem_flatMap]
        exact ⟨g, hg, by rw [← show g.key = k from hk]; exact List.mem_cons_self⟩
      obtain ⟨f, hf, hm⟩ := List.mem_flatten.mp this
      exact ⟨f, hf, _, hm⟩
    · rintro ⟨f, hf, v, hm⟩
      have : (k, v) ∈ gs.flatMap Group.rows := h1.mem_iff.mp (List.mem_flatten.mpr ⟨f, hf, hm⟩)
      obtain ⟨g, hg, hr⟩ := List.mem_flatMap.mp this
      obtain ⟨x, -, e⟩ := List.mem_map.mp hr
      cases e
      have : g.key ∈ T.map (·.1) := by rw [h4]; exact List.mem_map.mpr ⟨g, hg, rfl⟩
      obtain ⟨kv, hkv, e⟩ := List.mem_map.mp this
      exact ⟨kv.2, by rw [← e]; exact hkv⟩
  · intro k v hv
    obtain ⟨g, hg, hk, hm⟩ := h5 _ hv
    refine ⟨MTree.chain g.first g.rest, ?_, ?_⟩
    · rw [chain_leaves, ← group_values h2 hg, ← show g.key = k from hk]
      exact ((h1.filter _).map _).symm
    · rw [mergeEval_chain, ← show g.key = k from hk]; exact hm

/-- C48: files of encoded values (whose index entries name types from at most 30 windows of 256 types)
are delivered as one view, which does not depend on the order of the files nor on the order in which
equal keys are read.  Without the bound on the windows, the order of files decides whether the process
is aborted: `C48_order_counterexample`. -/
theorem C48_order_partial (files files' : List Table) (hp : files.Perm files') (hs : ∀ f ∈ files, Sorted f)
    (ws : List Nat) (hws : ws.length ≤ 30) (he : ∀ f ∈ files, ∀ kv ∈ f, Encoded ws kv.1 kv.2) :
    ∃ T, ∀ pick, aggregated pick files = .ok T ∧ aggregated pick files' = .ok T := by
  have enc : ∀ {fs : List Table} {gs : List Group}, files.Perm fs → fs.flatten.Perm (gs.flatMap Group.rows) →
      ∀ g ∈ gs, ∀ x ∈ g.first :: g.rest, Encoded ws g.key x := by
    intro fs gs h1 h2 g hg x hx
    have : (g.key, x) ∈ fs.flatten := by
      rw [h2.mem_iff, List.mem_flatMap]
      exact ⟨g, hg, List.mem_map.mpr ⟨x, hx, rfl⟩⟩
    obtain ⟨f, hf, hm⟩ := List.mem_flatten.mp this
    exact he f (h1.mem_iff.mpr hf) _ hm
  have deliver : ∀ (fs : List Table) (pick : List Table → Nat), files.Perm fs → ∃ T, aggregated pick fs = .ok T := by
    intro fs pick h
    obtain ⟨gs, h1, -, h3⟩ := mergerRows_spec pick _ fs (fun f hf => hs f (h.mem_iff.mpr hf)) (Nat.lt_succ_self _)
    rw [aggregated, h3]
    refine mergeGroups_total fun g hg => ?_
    obtain ⟨w, hw, -⟩ := mergeFold_agrees hws (enc h h1 g hg) (.refl _)
    exact ⟨w, hw⟩
  have same : ∀ (fs fs' : List Table) (pick pick' : List Table → Nat) (T T' : Table), files.Perm fs → files.Perm fs' →
      aggregated pick fs = .ok T → aggregated pick' fs' = .ok T' → ∀ kv ∈ T, kv ∈ T' := by
    intro fs fs' pick pick' T T' q q' h h' kv hkv
    obtain ⟨gs, h1, h2, h3⟩ := mergerRows_spec pick _ fs (fun f hf => hs f (q.mem_iff.mpr hf)) (Nat.lt_succ_self _)
    obtain ⟨gs', h1', h2', h3'⟩ := mergerRows_spec pick' _ fs' (fun f hf => hs f (q'.mem_iff.mpr hf)) (Nat.lt_succ_self _)
    rw [aggregated, h3] at h
    rw [aggregated, h3'] at h'
    obtain ⟨-, h5⟩ := mergeGroups_ok h
    obtain ⟨h4', h5'⟩ := mergeGroups_ok h'
    obtain ⟨g, hg, hk, hm⟩ := h5 kv hkv
    have hpp : (gs.flatMap Group.rows).Perm (gs'.flatMap Group.rows) :=
      h1.symm.trans ((q.symm.trans q').flatten.trans h1')
    have : (g.key, g.first) ∈ gs'.flatMap Group.rows :=
      hpp.mem_iff.mp (List.mem_flatMap.mpr ⟨g, hg, List.mem_cons_self⟩)
    obtain ⟨g', hg', hr⟩ := List.mem_flatMap.mp this
    obtain ⟨x, -, e⟩ := List.mem_map.mp hr
    have e : g'.key = g.key := congrArg Prod.fst e
    have : g'.key ∈ T'.map (·.1) := by rw [h4']; exact List.mem_map.mpr ⟨g', hg', rfl⟩
    obtain ⟨kv', hkv', e2⟩ := List.mem_map.mp this
    obtain ⟨g2, hg2, hk2, hm2⟩ := h5' kv' hkv'
    have v1 := group_values h2 hg
    have v2 := group_values h2' hg2
    have ek : g2.key = g.key := by rw [hk2, e2, e]
    rw [ek] at v2
    have hv : (g.first :: g.rest).Perm (g2.first :: g2.rest) := by
      rw [← v1, ← v2]; exact (hpp.filter _).map _
    obtain ⟨w, hw, hw2⟩ := mergeFold_agrees hws (enc q h1 g hg) hv
    rw [ek, hw2] at hm2
    rw [hw] at hm
    have : kv = kv' := by
      apply Prod.ext
      · rw [← hk, ← hk2, ek]
      · exact (Out.ok.inj hm).symm.trans (Out.ok.inj hm2)
    rw [this]; exact hkv'
  have nodup : ∀ {T : Table}, StrictSorted T → T.Nodup := by
    intro T h
    exact h.imp fun {a b} hab e => by rw [e, lexLt_irrefl] at hab; cases hab
  have equal : ∀ (fs fs' : List Table) (pick pick' : List Table → Nat) (T T' : Table), files.Perm fs → files.Perm fs' →
      aggregated pick fs = .ok T → aggregated pick' fs' = .ok T' → T = T' := by
    intro fs fs' pick pick' T T' q q' h h'
    have s := (C48_view pick fs (fun f hf => hs f (q.mem_iff.mpr hf)) T h).1
    have s' := (C48_view pick' fs' (fun f hf => hs f (q'.mem_iff.mpr hf)) T' h').1
    have : T.Perm T' := (List.perm_ext_iff_of_nodup (nodup s) (nodup s')).mpr fun kv =>
      ⟨same fs fs' pick pick' T T' q q' h h' kv, same fs' fs pick' pick T' T q' q h' h kv⟩
    refine List.Perm.eq_of_pairwise (le := fun (a b : KV) => lexLt a.1 b.1 = true) ?_ s s' this
    intro a b _ _ hab hba
    rw [lexLt_asymm hab] at hba; cases hba
  obtain ⟨T, hT⟩ := deliver files (fun _ => 0) (.refl _)
  refine ⟨T, fun pick => ⟨?_, ?_⟩⟩
  · obtain ⟨T', hT'⟩ := deliver files pick (.refl _)
    rw [hT', equal _ _ _ _ T T' (.refl _) (.refl _) hT hT']
  · obtain ⟨T', hT'⟩ := deliver files' pick hp
    rw [hT', equal _ _ _ _ T T' (.refl _) hp hT hT']

/-- Every RRset or rdata key of the view has the earliest first-seen, latest last-seen and the sum of the
counts of all its observations in all files. -/
theorem C48_observations (pick : List Table → Nat) (files : List Table) (hs : ∀ f ∈ files, Sorted f) (T : Table)
    (h : aggregated pick files = .ok T) (k v : Bytes) (hk : k.head? = some 0 ∨ k.head? = some 2) (hv : (k, v) ∈ T)
    (obs : List (Nat × Nat × Nat)) (hb : ∀ x ∈ obs, x.1 < 2 ^ 64 ∧ x.2.1 < 2 ^ 64 ∧ x.2.2 < 2 ^ 64)
    (ho : valuesOf k files = obs.map fun x => tripletPack x.1 x.2.1 x.2.2) :
    ∃ m M, (obs.map (·.1)).min? = some m ∧ (obs.map (·.2.1)).max? = some M ∧
      v = tripletPack m M ((obs.map (·.2.2)).sum % 2 ^ 64) := by
  obtain ⟨gs, h1, h2, h3⟩ := mergerRows_spec pick _ files hs (Nat.lt_succ_self _)
  rw [aggregated, h3] at h
  obtain ⟨g, hg, hkey, hm⟩ := (mergeGroups_ok h).2 _ hv
  have hkey : g.key = k := hkey
  have hperm : (valuesOf k files).Perm (g.first :: g.rest) := by
    rw [← group_values h2 hg, hkey]; exact (h1.filter _).map _
  cases obs with
  | nil => rw [ho] at hperm; exact absurd hperm.length_eq (by simp)
  | cons x xs =>
    obtain ⟨m, M, a1, a2, a3⟩ := C05_merge_any_grouping k hk (MTree.chain x xs) (by rw [chain_leaves]; exact hb)
    rw [chain_leaves] at a1 a2 a3
    refine ⟨m, M, a1, a2, ?_⟩
    rw [chain_map, mergeEval_chain] at a3
    have enc : ∀ y ∈ tripletPack x.1 x.2.1 x.2.2 :: xs.map (fun x => tripletPack x.1 x.2.1 x.2.2), Encoded [] k y := by
      intro y hy
      obtain ⟨z, hz, rfl⟩ := List.mem_map.mp (show y ∈ (x :: xs).map (fun x => tripletPack x.1 x.2.1 x.2.2) from hy)
      refine ⟨fun _ => ⟨z, hb z hz, rfl⟩, ?_, ?_, ?_⟩
      · rcases hk with e | e <;> (rw [e]; intro h; simp at h)
      · rintro rfl; simp at hk
      · rintro vt rfl; simp at hk
    rw [ho] at hperm
    obtain ⟨w, hw, hw'⟩ := mergeFold_agrees (ws := []) (by simp) enc hperm
    rw [a3] at hw
    rw [hkey, hw'] at hm
    cases hm; cases hw; rfl

/-- Three files with shared and separate keys. -/
def exFiles : List Table :=
  [[([0, 0, 1, 0], tripletPack 500 700 3), ([1, 0], [1]), ([254], pairPack 5 90)],
   [([0, 0, 1, 0], tripletPack 400 600 2), ([0, 0, 2, 0], tripletPack 1 2 1), ([1, 0], [28])],
   [([1, 0], [1, 1]), ([7], [65]), ([254], pairPack 3 40)]]

/-- Their view, and the hypotheses of `C48_view` and `C48_observations`. -/
example : (∀ f ∈ exFiles, Sorted f) ∧
    aggregated (fun _ => 0) exFiles = .ok
      [([0, 0, 1, 0], tripletPack 400 700 5), ([0, 0, 2, 0], tripletPack 1 2 1),
       ([1, 0], [0, 4, 0x40, 0, 0, 0x08, 1, 1, 0x40]), ([7], [65]), ([254], pairPack 3 90)] ∧
    aggregated (fun _ => 2) exFiles.reverse = aggregated (fun _ => 0) exFiles ∧
    valuesOf [0, 0, 1, 0] exFiles = [(500, 700, 3), (400, 600, 2)].map fun x => tripletPack x.1 x.2.1 x.2.2 := by
  refine ⟨by decide +kernel, by decide +kernel, by decide +kernel, by decide +kernel⟩

/-- The hypothesis of `C48_order_partial` for a row of each kind in `exFiles`. -/
example : Encoded [0, 1] [0, 0, 1, 0] (tripletPack 500 700 3) ∧ Encoded [0, 1] [1, 0] [28] ∧
    Encoded [0, 1] [254] (pairPack 5 90) ∧ Encoded [0, 1] [7] [65] ∧ Encoded [0, 1] [255, 1] [2] := by
  have no : ∀ {p q : Prop} [Decidable p], decide p = false → p → q := fun h hp => by simp [hp] at h
  refine ⟨⟨fun _ => ⟨(500, 700, 3), by decide, rfl⟩, no (by decide), no (by decide), by simp⟩,
    ⟨no (by decide), fun _ => ⟨some (· == 28), ?_, by decide +kernel⟩, no (by decide), by simp⟩,
    ⟨no (by decide), no (by decide), fun _ => ⟨some (5, 90), by simp, rfl⟩, by simp⟩,
    ⟨no (by decide), no (by decide), no (by decide), by simp⟩,
    ⟨no (by decide), no (by decide), no (by decide), fun vt _ _ => ⟨some 2, by simp, by decide +kernel⟩⟩⟩
  intro p hp
  cases hp
  exact ⟨⟨28, by decide, rfl⟩, rfl, fun t _ ht => by simp at ht; subst ht; decide⟩

/-- C48 counterexample: a name with the 31 types of `bigSet` in one file, with type 1 in another and with
the legacy empty value in a third: whether the merge aborts the process depends on the order of files. -/
theorem C48_order_counterexample :
    let a : Table := [([1, 0], bigSet.bytes)]
    let b : Table := [([1, 0], [1])]
    let c : Table := [([1, 0], [])]
    aggregated (fun _ => 0) [a, b, c] = .fault .abort ∧ aggregated (fun _ => 0) [c, b, a] = .ok [([1, 0], [])] := by
  refine ⟨by decide +kernel, by decide +kernel⟩

end Verif.Props
