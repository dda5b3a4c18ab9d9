import Verif.Model.Merger
import Verif.Lemmas.Mtbl
import Verif.Lemmas.Merge

/-! # What the merger delivers -/

namespace Verif
open Spec

/-- Merge values from left to right. -/
def mergeFold (k : Bytes) : Bytes → List Bytes → Out Bytes
  | v, [] => .ok v
  | v, x :: xs => do
    let v' ← mergeFunc k v x
    mergeFold k v' xs

theorem chain_leaves {α : Type} (v : α) (vs : List α) : (MTree.chain v vs).leaves = v :: vs := by
  have : ∀ (vs : List α) (t : MTree α), (vs.foldl (fun t b => MTree.node t (.leaf b)) t).leaves = t.leaves ++ vs := by
    intro vs
    induction vs with
    | nil => intro t; simp
    | cons x xs ih => intro t; simp [ih, MTree.leaves]
  simp [MTree.chain, this, MTree.leaves]

theorem chain_map {α β : Type} (f : α → β) (v : α) (vs : List α) :
    (MTree.chain v vs).map f = MTree.chain (f v) (vs.map f) := by
  have : ∀ (vs : List α) (t : MTree α), (vs.foldl (fun t b => MTree.node t (.leaf b)) t).map f =
      (vs.map f).foldl (fun t b => MTree.node t (.leaf b)) (t.map f) := by
    intro vs
    induction vs with
    | nil => intro t; simp
    | cons x xs ih => intro t; simp [ih, MTree.map]
  simp [MTree.chain, this, MTree.map]

theorem mergeEval_chain (k v : Bytes) (vs : List Bytes) : mergeEval k (MTree.chain v vs) = mergeFold k v vs := by
  have : ∀ (vs : List Bytes) (t : MTree Bytes), mergeEval k (vs.foldl (fun t b => MTree.node t (.leaf b)) t) =
      (mergeEval k t >>= fun v => mergeFold k v vs) := by
    intro vs
    induction vs with
    | nil => intro t; cases h : mergeEval k t <;> simp [h, mergeFold, bind, Out.bind]
    | cons x xs ih =>
      intro t
      rw [List.foldl_cons, ih]
      cases h : mergeEval k t <;> simp [h, mergeEval, mergeFold, bind, Out.bind]
  simp [MTree.chain, this, mergeEval]

/-- Every file is in key order. -/
def AllSorted (cs : List Table) : Prop := ∀ c ∈ cs, Sorted c

theorem isMinHead_iff {cs : List Table} {i : Nat} : isMinHead cs i = true ↔
    ∃ kv r, cs[i]? = some (kv :: r) ∧ ∀ x y, x :: y ∈ cs → lexLe kv.1 x.1 = true := by
  unfold isMinHead
  split
  · rename_i kv r h
    rw [h]
    constructor
    · intro h2
      refine ⟨kv, r, rfl, fun x y hxy => ?_⟩
      exact List.all_eq_true.mp h2 _ hxy
    · rintro ⟨kv', r', h1, h2⟩
      cases h1
      rw [List.all_eq_true]
      intro c hc
      cases c with
      | nil => rfl
      | cons x y => exact h2 x y hc
  · rename_i h
    constructor
    · intro h2; cases h2
    · rintro ⟨kv, r, h1, -⟩
      exact (h kv r h1).elim

theorem exists_minHead : ∀ {cs : List Table}, cs.flatten ≠ [] → ∃ i, i < cs.length ∧ isMinHead cs i = true
  | [], h => (h rfl).elim
  | c :: cs, h => by
    by_cases hc : cs.flatten = []
    · cases c with
      | nil => simp [hc] at h
      | cons kv r =>
        refine ⟨0, by simp, isMinHead_iff.mpr ⟨kv, r, rfl, fun x y hxy => ?_⟩⟩
        rcases List.mem_cons.mp hxy with e | e
        · cases e; exact lexLe_refl _
        · rw [List.flatten_eq_nil_iff] at hc
          exact absurd (hc _ e) (by simp)
    · obtain ⟨i, hi, hm⟩ := exists_minHead hc
      obtain ⟨kv, r, h1, h2⟩ := isMinHead_iff.mp hm
      have keep : (∀ x y, c = x :: y → lexLe kv.1 x.1 = true) →
          ∃ i, i < (c :: cs).length ∧ isMinHead (c :: cs) i = true := by
        intro h3
        refine ⟨i + 1, by simp; omega, isMinHead_iff.mpr ⟨kv, r, by simpa using h1, fun x y hxy => ?_⟩⟩
        rcases List.mem_cons.mp hxy with e | e
        · exact h3 x y e.symm
        · exact h2 x y e
      cases c with
      | nil => exact keep fun x y e => by cases e
      | cons kv' r' =>
        rcases lexLt_total kv'.1 kv.1 with hlt | heq | hgt
        · refine ⟨0, by simp, isMinHead_iff.mpr ⟨kv', r', rfl, fun x y hxy => ?_⟩⟩
          rcases List.mem_cons.mp hxy with e | e
          · cases e; exact lexLe_refl _
          · exact lexLe_trans (lexLe_iff.mpr (.inl hlt)) (h2 x y e)
        · exact keep fun x y e => by cases e; rw [heq]; exact lexLe_refl _
        · exact keep fun x y e => by cases e; exact lexLe_iff.mpr (.inl hgt)

theorem chooseMin_some {pick : List Table → Nat} {cs : List Table} {i : Nat} (h : chooseMin pick cs = some i) :
    isMinHead cs i = true := by
  unfold chooseMin at h
  split at h
  · rename_i h1; cases h; exact h1
  · exact List.find?_some h

theorem chooseMin_none {pick : List Table → Nat} {cs : List Table} (h : chooseMin pick cs = none) :
    cs.flatten = [] := by
  unfold chooseMin at h
  split at h
  · cases h
  · rw [List.find?_eq_none] at h
    rcases Classical.em (cs.flatten = []) with h1 | h1
    · exact h1
    · obtain ⟨i, hi, hm⟩ := exists_minHead h1
      exact absurd hm (h i (List.mem_range.mpr hi))

theorem mergerPop_none {pick : List Table → Nat} {cs : List Table} (h : mergerPop pick cs = none) :
    cs.flatten = [] := by
  unfold mergerPop at h
  split at h
  · rename_i h1; exact chooseMin_none h1
  · rename_i i h1
    obtain ⟨kv, r, h2, -⟩ := isMinHead_iff.mp (chooseMin_some h1)
    rw [h2] at h
    cases h

theorem mergerPop_some {pick : List Table → Nat} {cs cs' : List Table} {kv : KV} (hs : AllSorted cs)
    (h : mergerPop pick cs = some (kv, cs')) :
    cs.flatten.Perm (kv :: cs'.flatten) ∧ AllSorted cs' ∧ ∀ x ∈ cs.flatten, lexLe kv.1 x.1 = true := by
  unfold mergerPop at h
  split at h
  · cases h
  · rename_i i h1
    obtain ⟨kv', r, h2, h3⟩ := isMinHead_iff.mp (chooseMin_some h1)
    rw [h2] at h
    simp only [Option.some.injEq, Prod.mk.injEq] at h
    obtain ⟨rfl, rfl⟩ := h
    obtain ⟨hi, hget⟩ := List.getElem?_eq_some_iff.mp h2
    have hcs : cs = cs.take i ++ (kv' :: r) :: cs.drop (i + 1) := by
      rw [← hget, List.getElem_cons_drop, List.take_append_drop]
    have hmem : kv' :: r ∈ cs := by rw [← hget]; exact List.getElem_mem hi
    refine ⟨?_, ?_, ?_⟩
    · rw [List.set_eq_take_append_cons_drop, if_pos hi]
      conv => lhs; rw [hcs]
      simp only [List.flatten_append, List.flatten_cons, List.cons_append]
      exact List.perm_middle
    · intro c hc
      rcases List.mem_or_eq_of_mem_set hc with h | rfl
      · exact hs c h
      · exact (hs _ hmem).tail
    · intro x hx
      obtain ⟨c, hc, hxc⟩ := List.mem_flatten.mp hx
      cases c with
      | nil => cases hxc
      | cons y ys =>
        rcases List.mem_cons.mp hxc with rfl | hxc'
        · exact h3 x ys hc
        · exact lexLe_trans (h3 y ys hc) ((hs _ hc).head hxc')

theorem mergerCollect_spec (pick : List Table → Nat) (k : Bytes) :
    ∀ (n : Nat) (cs : List Table), AllSorted cs → cs.flatten.length < n → (∀ x ∈ cs.flatten, lexLe k x.1 = true) →
      ∃ vs ds, cs.flatten.Perm (vs.map (fun v => (k, v)) ++ ds.flatten) ∧ AllSorted ds ∧
        (∀ x ∈ ds.flatten, lexLt k x.1 = true) ∧
        ∀ v, mergerCollect pick k n v cs = (mergeFold k v vs >>= fun w => .ok (w, ds))
  | 0, cs, _, hn, _ => by omega
  | n + 1, cs, hs, hn, hk => by
    cases hp : mergerPop pick cs with
    | none =>
      refine ⟨[], cs, by simp, hs, ?_, fun v => ?_⟩
      · rw [mergerPop_none hp]; intro x hx; cases hx
      · rw [mergerCollect, hp]; rfl
    | some r =>
      obtain ⟨kv, cs'⟩ := r
      obtain ⟨h1, h2, h3⟩ := mergerPop_some hs hp
      by_cases he : kv.1 = k
      · obtain ⟨vs, ds, i1, i2, i3, i4⟩ := mergerCollect_spec pick k n cs' h2
          (by have := h1.length_eq; rw [List.length_cons] at this; omega)
          (fun x hx => hk x (h1.mem_iff.mpr (List.mem_cons_of_mem _ hx)))
        refine ⟨kv.2 :: vs, ds, ?_, i2, i3, fun v => ?_⟩
        · refine h1.trans ?_
          have : kv = (k, kv.2) := by rw [← he]
          rw [List.map_cons, ← this]
          exact i1.cons kv
        · rw [mergerCollect, hp]
          simp only [if_pos he, mergeFold]
          cases mergeFunc k v kv.2 with
          | ok v' => simp only [Out.ok_bind]; exact i4 v'
          | fail => rfl
          | fault f => rfl
      · refine ⟨[], cs, by simp, hs, ?_, fun v => ?_⟩
        · intro x hx
          have hkv : kv ∈ cs.flatten := h1.mem_iff.mpr List.mem_cons_self
          rcases lexLe_iff.mp (hk kv hkv) with h | h
          · exact lexLt_of_lt_of_le h (h3 x hx)
          · exact absurd h.symm he
        · rw [mergerCollect, hp]
          simp only [if_neg he]
          rfl

/-- The values of one key: key, first value, further values, in the order they are merged. -/
structure Group where
  key : Bytes
  first : Bytes
  rest : List Bytes

/-- The rows of a group. -/
def Group.rows (g : Group) : Table := (g.first :: g.rest).map fun v => (g.key, v)

/-- The rows merged from groups. -/
def mergeGroups : List Group → Out Table
  | [] => .ok []
  | g :: gs => do
    let v ← mergeFold g.key g.first g.rest
    let rest ← mergeGroups gs
    .ok ((g.key, v) :: rest)

theorem mergerRows_spec (pick : List Table → Nat) :
    ∀ (n : Nat) (cs : List Table), AllSorted cs → cs.flatten.length < n →
      ∃ gs : List Group, cs.flatten.Perm (gs.flatMap Group.rows) ∧
        gs.Pairwise (fun a b => lexLt a.key b.key = true) ∧ mergerRows pick n cs = mergeGroups gs
  | 0, cs, _, hn => by omega
  | n + 1, cs, hs, hn => by
    cases hp : mergerPop pick cs with
    | none =>
      refine ⟨[], by rw [mergerPop_none hp]; exact .nil, .nil, ?_⟩
      rw [mergerRows, hp]; rfl
    | some r =>
      obtain ⟨kv, cs'⟩ := r
      obtain ⟨h1, h2, h3⟩ := mergerPop_some hs hp
      have hlen := h1.length_eq
      simp only [List.length_cons] at hlen
      obtain ⟨vs, ds, i1, i2, i3, i4⟩ := mergerCollect_spec pick kv.1 (cs'.flatten.length + 1) cs' h2
        (Nat.lt_succ_self _) (fun x hx => h3 x (h1.mem_iff.mpr (List.mem_cons_of_mem _ hx)))
      have hlen2 := i1.length_eq
      simp only [List.length_append, List.length_map] at hlen2
      obtain ⟨gs, j1, j2, j3⟩ := mergerRows_spec pick n ds i2 (by omega)
      refine ⟨⟨kv.1, kv.2, vs⟩ :: gs, ?_, ?_, ?_⟩
      · refine h1.trans ?_
        rw [List.flatMap_cons]
        show (kv :: cs'.flatten).Perm (kv :: (vs.map (fun v => (kv.1, v)) ++ gs.flatMap Group.rows))
        exact (i1.trans (j1.append_left _)).cons kv
      · refine List.pairwise_cons.mpr ⟨fun g hg => ?_, j2⟩
        have hm : (g.key, g.first) ∈ ds.flatten := by
          rw [j1.mem_iff, List.mem_flatMap]
          exact ⟨g, hg, List.mem_cons_self⟩
        exact i3 _ hm
      · rw [mergerRows, hp]
        simp only [i4, mergeGroups]
        cases mergeFold kv.1 kv.2 vs with
        | ok v => simp only [Out.ok_bind, j3]
        | fail => rfl
        | fault f => rfl

theorem group_values {gs : List Group} (hp : gs.Pairwise (fun a b => lexLt a.key b.key = true)) {g : Group}
    (hg : g ∈ gs) : ((gs.flatMap Group.rows).filter (fun kv => kv.1 == g.key)).map (·.2) = g.first :: g.rest := by
  have self : ∀ g : Group, (g.rows.filter (fun kv => kv.1 == g.key)).map (·.2) = g.first :: g.rest := by
    intro g
    rw [List.filter_eq_self.mpr (by
      intro kv hkv
      obtain ⟨v, -, rfl⟩ := List.mem_map.mp hkv
      simp)]
    simp [Group.rows, Function.comp_def]
  have other : ∀ g h : Group, g.key ≠ h.key → g.rows.filter (fun kv => kv.1 == h.key) = [] := by
    intro g h hne
    rw [List.filter_eq_nil_iff]
    intro kv hkv
    obtain ⟨v, -, rfl⟩ := List.mem_map.mp hkv
    simpa using hne
  induction gs with
  | nil => cases hg
  | cons a gs ih =>
    obtain ⟨h1, h2⟩ := List.pairwise_cons.mp hp
    rw [List.flatMap_cons, List.filter_append, List.map_append]
    rcases List.mem_cons.mp hg with rfl | hg'
    · rw [self]
      have : (gs.flatMap Group.rows).filter (fun kv => kv.1 == g.key) = [] := by
        rw [List.filter_eq_nil_iff]
        intro kv hkv
        obtain ⟨b, hb, hkv⟩ := List.mem_flatMap.mp hkv
        obtain ⟨v, -, rfl⟩ := List.mem_map.mp hkv
        have := h1 b hb
        intro e
        simp only [beq_iff_eq] at e
        rw [e, lexLt_irrefl] at this
        cases this
      simp [this]
    · have hne : a.key ≠ g.key := by
        intro e
        have := h1 g hg'
        rw [e, lexLt_irrefl] at this
        cases this
      rw [other a g hne, ih h2 hg']
      rfl

/-- When merging the groups delivers, it delivers one row per group. -/
theorem mergeGroups_ok : ∀ {gs : List Group} {T : Table}, mergeGroups gs = .ok T →
    T.map (·.1) = gs.map Group.key ∧
    ∀ kv ∈ T, ∃ g ∈ gs, g.key = kv.1 ∧ mergeFold g.key g.first g.rest = .ok kv.2
  | [], T, h => by cases h; exact ⟨rfl, fun _ h => by cases h⟩
  | g :: gs, T, h => by
    simp only [mergeGroups] at h
    cases hf : mergeFold g.key g.first g.rest with
    | fail => rw [hf] at h; cases h
    | fault f => rw [hf] at h; cases h
    | ok v =>
      rw [hf, Out.ok_bind] at h
      cases hr : mergeGroups gs with
      | fail => rw [hr] at h; cases h
      | fault f => rw [hr] at h; cases h
      | ok T' =>
        rw [hr, Out.ok_bind] at h
        cases h
        obtain ⟨i1, i2⟩ := mergeGroups_ok hr
        refine ⟨by simp [i1], fun kv hkv => ?_⟩
        rcases List.mem_cons.mp hkv with rfl | hkv
        · exact ⟨g, List.mem_cons_self, rfl, hf⟩
        · obtain ⟨g', hg', h'⟩ := i2 kv hkv
          exact ⟨g', List.mem_cons_of_mem _ hg', h'⟩

theorem mergeGroups_total : ∀ {gs : List Group}, (∀ g ∈ gs, ∃ v, mergeFold g.key g.first g.rest = .ok v) →
    ∃ T, mergeGroups gs = .ok T
  | [], _ => ⟨[], rfl⟩
  | g :: gs, h => by
    obtain ⟨v, hv⟩ := h g List.mem_cons_self
    obtain ⟨T, hT⟩ := mergeGroups_total fun g' hg => h g' (List.mem_cons_of_mem _ hg)
    exact ⟨(g.key, v) :: T, by simp [mergeGroups, hv, hT]⟩

end Verif
