import Verif.Lemmas.IterMem

/-! The blocks of query iterators while they are made. -/

namespace Verif

/-- The filters a query iterator may have. -/
def filterSlots : List Stage :=
  [.filterSingleLabel, .filterRrtype, .filterBailiwick, .filterTimePrefilter, .filterTime, .filterOffset]

/-- A query iterator in preparation: its blocks, what its parts refer to, which filters it does not have yet, and what is
as in `it0`. -/
structure Prep (it0 : QIterMem) (fr : List Stage) (X : List Nat) (G : List (Nat × Bytes)) (it : QIterMem) (R : List (Nat × Bytes)) :
    Prop where
  perm : R.Perm (zs (it.objs ++ it.mIter2.ids) ++ G)
  source : it.source.needs ⊆ it.objs ++ X
  index : it.index.needs ⊆ it.objs ++ X
  second : it.mIter2.needs ⊆ it.objs ++ X
  first : it.mIter = .null
  leaks : it.mIter2.leaks = []
  plain : it0.removeStrict = none → it.source.plain
  plainIndex : it.index.plain
  free : ∀ s ∈ fr, it.filters s = none
  slots : fr ⊆ filterSlots
  q : it.q = it0.q
  query : it.query = it0.query
  live : it0.query ∈ X
  self : it.self = it0.self
  ljoin : it.ljoin = it0.ljoin
  merger : it.fillMerger = it0.fillMerger
  fill : it.fill = it0.fill
  fillLive : it0.fill ⊆ X
  remove : it.removeStrict = it0.removeStrict
  removeLive : ∀ r, it0.removeStrict = some r → r.rm ⊆ X
  ext : X ⊆ ids G

theorem Prep.data {it0 it : QIterMem} {fr : List Stage} {X : List Nat} {G R : List (Nat × Bytes)} (h : Prep it0 fr X G it R) :
    it.data ⊆ it.objs ++ X := by
  intro x hx
  simp only [QIterMem.data, List.mem_cons, List.not_mem_nil, or_false] at hx
  rcases hx with rfl | rfl
  · simp [QIterMem.objs]
  · exact List.mem_append_right _ (by rw [h.query]; exact h.live)

theorem Prep.rebase {it0 it : QIterMem} {fr : List Stage} {X : List Nat} {G R : List (Nat × Bytes)} (h : Prep it0 fr X G it R) :
    Prep it fr X G it R :=
  { h with
    plain := by rw [h.remove]; exact h.plain
    q := rfl, query := rfl, self := rfl, ljoin := rfl, merger := rfl, fill := rfl, remove := rfl
    live := by rw [h.query]; exact h.live
    fillLive := by rw [h.fill]; exact h.fillLive
    removeLive := by rw [h.remove]; exact h.removeLive }

theorem Prep.fewer {it0 it : QIterMem} {fr fr' : List Stage} {X : List Nat} {G R : List (Nat × Bytes)} (h : Prep it0 fr X G it R)
    (hs : fr' ⊆ fr) : Prep it0 fr' X G it R :=
  { h with free := fun s hx => h.free s (hs hx), slots := fun s hx => h.slots (hs hx) }

/-- A new stage in a free place. -/
theorem objs_filter (it : QIterMem) (st : StageMem) (s : Stage) (hs : s ∈ filterSlots) (hf : it.filters s = none)
    (src idx : SrcMem) :
    ({ it with filters := fun t => if t = s then some st else it.filters t, source := src, index := idx }
      : QIterMem).objs.Perm (sids (some st) ++ it.objs) := by
  have hc : ∀ t, sids (if t = s then some st else it.filters t) =
      if t = s then sids (some st) ++ sids (it.filters t) else sids (it.filters t) := by
    intro t
    by_cases e : t = s
    · subst e; rw [if_pos rfl, if_pos rfl, hf]; rfl
    · rw [if_neg e, if_neg e]
  simp only [filterSlots, List.mem_cons, List.not_mem_nil, or_false] at hs
  unfold QIterMem.objs
  simp only [hc]
  rcases hs with rfl | rfl | rfl | rfl | rfl | rfl <;> simp only [if_true, reduceCtorEq, if_false] <;> blocks

/-- Adding blocks keeps what was referred to. -/
theorem sub_more {l A B ex X : List Nat} (h : l ⊆ A ++ X) (hp : B.Perm (ex ++ A)) : l ⊆ B ++ X := by
  intro x hx
  have := h hx
  simp only [List.mem_append] at this ⊢
  rcases this with h1 | h1
  · exact .inl (hp.mem_iff.2 (List.mem_append_right _ h1))
  · exact .inr h1

theorem zs_perm {A B : List Nat} (h : A.Perm B) : (zs A).Perm (zs B) := h.map _

theorem more_blocks {R R1 G : List (Nat × Bytes)} {A B ex m : List Nat} (hp : R1.Perm (zs ex ++ R))
    (h : R.Perm (zs (A ++ m) ++ G)) (ho : B.Perm (ex ++ A)) : R1.Perm (zs (B ++ m) ++ G) := by
  have hz := zs_perm ho
  refine hp.trans ((h.append_left _).trans ?_)
  refine List.perm_iff_count.2 fun x => ?_
  have hc := List.perm_iff_count.1 hz x
  simp only [zs_append, List.count_append] at hc ⊢
  omega

/-- What is as before when a filter is put on. -/
structure Extends (it it' : QIterMem) : Prop where
  key : it'.key = it.key
  key2 : it'.key2 = it.key2
  second : it'.mIter2 = it.mIter2
  timeout : it'.timeout = it.timeout
  timeoutIndex : it'.timeoutIndex = it.timeoutIndex
  indirect : it'.indirect = it.indirect

theorem Extends.refl (it : QIterMem) : Extends it it := ⟨rfl, rfl, rfl, rfl, rfl, rfl⟩

theorem Extends.trans {a b c : QIterMem} (h : Extends a b) (h' : Extends b c) : Extends a c :=
  ⟨h'.key.trans h.key, h'.key2.trans h.key2, h'.second.trans h.second, h'.timeout.trans h.timeout,
    h'.timeoutIndex.trans h.timeoutIndex, h'.indirect.trans h.indirect⟩

theorem does_filterIf {it0 it : QIterMem} {fr fr' : List Stage} {X : List Nat} {G R : List (Nat × Bytes)} {s : Stage} (c : Bool)
    (h : Prep it0 (s :: fr) X G it R) (hn : s ∉ fr') (hs : fr' ⊆ s :: fr) :
    Does (filterIfMem c s it) R fun it' R' => Prep it0 fr' X G it' R' ∧ Extends it it' := by
  unfold filterIfMem
  cases c with
  | false => exact .pure ⟨h.fewer hs, .refl _⟩
  | true =>
    simp only [if_true]
    refine (does_stageInit _).bind ?_
    intro st R1 hp
    have ho := objs_filter it st s (h.slots List.mem_cons_self) (h.free s List.mem_cons_self)
      (.filter st.obj st.src it.data it.source) it.index
    refine .pure ⟨{ h.fewer hs with
      perm := ?_
      source := ?_
      index := sub_more h.index ho
      second := sub_more h.second ho
      plain := h.plain
      free := ?_ }, ⟨rfl, rfl, rfl, rfl, rfl, rfl⟩⟩
    · exact more_blocks hp h.perm ho
    · intro x hx
      simp only [SrcMem.needs, List.mem_cons, List.mem_append] at hx
      rcases hx with rfl | rfl | hx | hx
      · exact List.mem_append_left _ (ho.mem_iff.2 (by simp [sids]))
      · exact List.mem_append_left _ (ho.mem_iff.2 (by simp [sids]))
      · exact sub_more h.data ho hx
      · exact sub_more h.source ho hx
    · intro t ht
      simp only
      rw [if_neg (by rintro rfl; exact hn ht)]
      exact h.free t (hs ht)

theorem does_indexFilterIf {it0 it : QIterMem} {fr fr' : List Stage} {X : List Nat} {G R : List (Nat × Bytes)} {s : Stage} (c : Bool)
    (h : Prep it0 (s :: fr) X G it R) (hn : s ∉ fr') (hs : fr' ⊆ s :: fr) :
    Does (indexFilterIfMem c s it) R fun it' R' => Prep it0 fr' X G it' R' ∧ Extends it it' := by
  unfold indexFilterIfMem
  cases c with
  | false => exact .pure ⟨h.fewer hs, .refl _⟩
  | true =>
    simp only [if_true]
    refine (does_stageInit _).bind ?_
    intro st R1 hp
    have ho := objs_filter it st s (h.slots List.mem_cons_self) (h.free s List.mem_cons_self)
      it.source (.filter st.obj st.src it.data it.index)
    refine .pure ⟨{ h.fewer hs with
      perm := ?_
      source := sub_more h.source ho
      index := ?_
      second := sub_more h.second ho
      plainIndex := h.plainIndex
      free := ?_ }, ⟨rfl, rfl, rfl, rfl, rfl, rfl⟩⟩
    · exact more_blocks hp h.perm ho
    · intro x hx
      simp only [SrcMem.needs, List.mem_cons, List.mem_append] at hx
      rcases hx with rfl | rfl | hx | hx
      · exact List.mem_append_left _ (ho.mem_iff.2 (by simp [sids]))
      · exact List.mem_append_left _ (ho.mem_iff.2 (by simp [sids]))
      · exact sub_more h.data ho hx
      · exact sub_more h.index ho hx
    · intro t ht
      simp only
      rw [if_neg (by rintro rfl; exact hn ht)]
      exact h.free t (hs ht)

/-! ## Keys and timeouts -/

theorem Prep.keyLen {it0 it : QIterMem} {fr : List Stage} {X : List Nat} {G R : List (Nat × Bytes)} (h : Prep it0 fr X G it R) (n : Nat) :
    Prep it0 fr X G { it with keyLen := n } R := { h with }

theorem does_newKey {it0 it : QIterMem} {fr : List Stage} {X : List Nat} {G R : List (Nat × Bytes)} (h : Prep it0 fr X G it R)
    (hk : it.key = none) :
    Does (newKeyMem it) R fun it' R' => (∃ k, it' = { it with key := some k }) ∧ Prep it0 fr X G it' R' := by
  unfold newKeyMem
  refine (does_vecInit _).bind ?_
  intro k R1 hp
  have ho : ({ it with key := some k } : QIterMem).objs.Perm (vids (some k) ++ it.objs) := by
    unfold QIterMem.objs
    simp only [hk, vids]
    blocks
  refine .pure ⟨⟨k, rfl⟩, { h with
    perm := more_blocks (ex := vids (some k)) (by simpa [vids, VecMem.own] using hp) h.perm ho
    source := sub_more h.source ho
    index := sub_more h.index ho
    second := sub_more h.second ho }⟩

theorem Prep.vec {it0 it : QIterMem} {fr : List Stage} {X : List Nat} {G R : List (Nat × Bytes)} (h : Prep it0 fr X G it R)
    {k : VecMem} (hk : it.key = some k) : ∀ b ∈ k.own, b ∈ R := by
  intro b hb
  refine h.perm.mem_iff.2 ?_
  simp only [VecMem.own, List.mem_cons, List.not_mem_nil, or_false] at hb
  unfold QIterMem.objs
  rw [hk]
  rcases hb with rfl | rfl <;> simp [vids, vblk, VecMem.own]

theorem does_setKey {it0 it : QIterMem} {fr : List Stage} {X : List Nat} {G R : List (Nat × Bytes)} (h : Prep it0 fr X G it R)
    {k : VecMem} (hk : it.key = some k) (n : Nat) :
    Does (setKeyMem it n) R fun it' R' => it' = { it with keyLen := n } ∧ R' = R := by
  unfold setKeyMem
  rw [hk]
  refine (does_vecTouch (h.vec hk)).bind ?_
  intro _ R' e
  rw [e]
  exact .pure ⟨rfl, rfl⟩

theorem Prep.second_key {it0 it : QIterMem} {fr : List Stage} {X : List Nat} {G R R1 : List (Nat × Bytes)} (h : Prep it0 fr X G it R)
    {k : VecMem} (hk : it.key2 = none) (n : Nat) (hp : R1.Perm (k.own ++ R)) :
    Prep it0 fr X G { it with key2 := some k, key2Len := n } R1 := by
  have ho : ({ it with key2 := some k, key2Len := n } : QIterMem).objs.Perm (vids (some k) ++ it.objs) := by
    unfold QIterMem.objs
    simp only [hk, vids]
    blocks
  exact { h with
    perm := more_blocks (ex := vids (some k)) (by simpa [vids, VecMem.own] using hp) h.perm ho
    source := sub_more h.source ho
    index := sub_more h.index ho
    second := sub_more h.second ho }

theorem does_timeouts {it0 it : QIterMem} {fr : List Stage} {X : List Nat} {G R : List (Nat × Bytes)} (h : Prep it0 fr X G it R)
    (h1 : it.timeout = none) (h2 : it.timeoutIndex = none) :
    Does (timeoutsMem it) R fun it' R' => Prep it0 fr X G it' R' ∧ it'.key = it.key ∧ it'.key2 = it.key2 ∧
      it'.mIter2 = it.mIter2 ∧ it'.indirect = it.indirect := by
  unfold timeoutsMem
  by_cases hc : it.q.lim.active = true
  · rw [if_pos hc]
    refine (does_stageInit _).bind ?_
    intro t R1 hp
    have ho : ({ it with timeout := some t, source := .timeout t.obj t.src [it.self] it.source }
        : QIterMem).objs.Perm (sids (some t) ++ it.objs) := by
      unfold QIterMem.objs
      simp only [h1, sids]
      blocks
    have h' : Prep it0 fr X G { it with timeout := some t, source := .timeout t.obj t.src [it.self] it.source } R1 :=
      { h with
        perm := more_blocks hp h.perm ho
        source := by
          intro x hx
          simp only [SrcMem.needs, List.mem_cons, List.mem_append, List.not_mem_nil, or_false] at hx
          rcases hx with rfl | rfl | rfl | hx
          · exact List.mem_append_left _ (ho.mem_iff.2 (by simp [sids]))
          · exact List.mem_append_left _ (ho.mem_iff.2 (by simp [sids]))
          · exact List.mem_append_left _ (by simp [QIterMem.objs])
          · exact sub_more h.source ho hx
        index := sub_more h.index ho
        second := sub_more h.second ho
        plain := h.plain }
    revert h'
    generalize hi : ({ it with timeout := some t, source := .timeout t.obj t.src [it.self] it.source } : QIterMem) = j
    intro h'
    refine (does_stageInit _).bind ?_
    intro u R2 hp
    have hj : j.timeoutIndex = none := by subst hi; exact h2
    have ho : ({ j with timeoutIndex := some u, index := .timeout u.obj u.src [j.self] j.index }
        : QIterMem).objs.Perm (sids (some u) ++ j.objs) := by
      unfold QIterMem.objs
      simp only [hj, sids]
      blocks
    refine .pure ⟨{ h' with
        perm := more_blocks hp h'.perm ho
        index := by
          intro x hx
          simp only [SrcMem.needs, List.mem_cons, List.mem_append, List.not_mem_nil, or_false] at hx
          rcases hx with rfl | rfl | rfl | hx
          · exact List.mem_append_left _ (ho.mem_iff.2 (by simp [sids]))
          · exact List.mem_append_left _ (ho.mem_iff.2 (by simp [sids]))
          · exact List.mem_append_left _ (by simp [QIterMem.objs])
          · exact sub_more h'.index ho hx
        source := sub_more h'.source ho
        second := sub_more h'.second ho
        plainIndex := h'.plainIndex }, ?_⟩
    subst hi
    exact ⟨rfl, rfl, rfl, rfl⟩
  · rw [if_neg hc]
    exact .pure ⟨h, rfl, rfl, rfl, rfl⟩

/-- The iterator over the index is opened. -/
theorem does_second {it0 it : QIterMem} {fr : List Stage} {X : List Nat} {G R : List (Nat × Bytes)} (h : Prep it0 fr X G it R)
    (hm : it.mIter2 = .null) (o : Heap → Bool) (n n2 : Nat) :
    Does (openIterMem o n n2 it.index) R fun m R' => Prep it0 fr X G { it with mIter2 := m, indirect := true } R' := by
  refine (does_openIter o n n2 it.index R (fun x hx => ?_)).weaken ?_
  · have := h.index hx
    have hs := ids_perm h.perm.symm
    refine hs ?_
    simp only [ids_append, ids_zs, List.mem_append] at this ⊢
    rcases this with h' | h'
    · exact .inl (.inl h')
    · exact .inr (h.ext h')
  rintro m R' ⟨hp, h2, h3⟩
  refine { h with
    perm := ?_
    second := fun x hx => h.index (h2 hx)
    leaks := h3 h.plainIndex }
  have := h.perm
  rw [hm] at this
  refine hp.trans ((this.append_left _).trans ?_)
  show List.Perm _ (zs (it.objs ++ m.ids) ++ G)
  simp only [zs_append, IterMem.ids, zs_nil]
  blocks

/-! ## The kinds of queries -/

theorem Runs.run {α β γ : Type} {v : Out α} {k : α → Mem γ} {R : List (Nat × Bytes)} {g : α → Out β}
    {Q : β → γ → List (Nat × Bytes) → Prop} {Qf : γ → List (Nat × Bytes) → Prop} (hn : v ≠ .fail)
    (hs : ∀ a, v = .ok a → Runs (k a) R (g a) Q Qf) : Runs (mPure v >>= k) R (v >>= g) Q Qf := by
  cases v with
  | ok a =>
    have h := hs a rfl
    have e : ∀ hp, (mPure (Out.ok a) >>= k) hp = k a hp := fun _ => rfl
    refine ⟨fun b eb hp H => ?_, fun eb hp H => ?_, fun f eb hp H => ?_⟩
    · obtain ⟨c, h', R', h1, h2⟩ := h.ok b eb hp H
      exact ⟨c, h', R', (e hp).trans h1, h2⟩
    · obtain ⟨c, h', R', h1, h2⟩ := h.fail eb hp H
      exact ⟨c, h', R', (e hp).trans h1, h2⟩
    · exact (e hp).trans (h.fault f eb hp H)
  | fail => exact absurd rfl hn
  | fault f =>
    refine ⟨nofun, nofun, fun f' e hp _ => ?_⟩
    cases e
    rfl

/-- The filters that come behind those of the kinds of queries. -/
def lateSlots : List Stage := [.filterTimePrefilter, .filterTime, .filterOffset]

/-- The outcome of a `query_init_*` function. -/
def InitOk (it0 : QIterMem) (X : List Nat) (G : List (Nat × Bytes)) (p : Plan) (a : QIterMem × Option Nat) (R' : List (Nat × Bytes)) :
    Prop :=
  ∃ d R2, a.2 = some d ∧ Prep it0 lateSlots X G a.1 R2 ∧ R' = (d, []) :: R2 ∧ a.1.indirect = p.indirect.isSome

/-- Its outcome if it fails. -/
def InitFail (G : List (Nat × Bytes)) (a : QIterMem × Option Nat) (R' : List (Nat × Bytes)) : Prop :=
  a.2 = none ∧ a.1.mIter = .null ∧ a.1.mIter2 = .null ∧ R'.Perm (zs a.1.objs ++ G)

theorem Prep.failed {it0 it : QIterMem} {fr : List Stage} {X : List Nat} {G R : List (Nat × Bytes)} (h : Prep it0 fr X G it R)
    (hm : it.mIter2 = .null) : InitFail G (it, none) R := by
  refine ⟨rfl, h.first, hm, ?_⟩
  have := h.perm
  rw [hm] at this
  simpa [IterMem.ids] using this

theorem does_done {it0 it : QIterMem} {X : List Nat} {G R : List (Nat × Bytes)} (h : Prep it0 lateSlots X G it R) (p : Plan)
    (hi : it.indirect = p.indirect.isSome) : Does (doneMem it) R (InitOk it0 X G p) := by
  unfold doneMem
  refine (does_alloc _ _).bind ?_
  rintro d _ ⟨rfl, -⟩
  exact .pure ⟨d, R, rfl, h, rfl, hi⟩

theorem does_rrsetRight {it0 it : QIterMem} {X : List Nat} {G R : List (Nat × Bytes)} (h : Prep it0 filterSlots X G it R) {k : VecMem}
    (hk : it.key = some k) (hm : it.mIter2 = .null) (o : Heap → Bool) (plus : Bool) (p : Plan)
    (hi : p.indirect.isSome = true) : Does (initRrsetRightMem o it plus) R (InitOk it0 X G p) := by
  unfold initRrsetRightMem
  refine (does_setKey h hk _).bind ?_
  rintro _ _ ⟨rfl, rfl⟩
  refine (does_indexFilterIf (fr' := .filterRrtype :: .filterBailiwick :: lateSlots) plus (h.keyLen _) (by decide)
    (fun _ h => List.mem_cons_of_mem _ h)).bind ?_
  rintro it1 R1 ⟨h1, e1⟩
  refine (does_second h1 (e1.second.trans hm) o _ _).bind ?_
  intro m R2 h2
  refine (does_filterIf (fr' := .filterBailiwick :: lateSlots) _ h2 (by decide)
    (fun _ h => List.mem_cons_of_mem _ h)).bind ?_
  rintro it3 R3 ⟨h3, e3⟩
  refine (does_filterIf (fr' := lateSlots) _ h3 (by decide) (fun _ h => List.mem_cons_of_mem _ h)).bind ?_
  rintro it4 R4 ⟨h4, e4⟩
  exact does_done h4 p ((e4.indirect.trans e3.indirect).trans hi.symm)

theorem runs_rrsetLeft {it0 it : QIterMem} {X : List Nat} {G R : List (Nat × Bytes)} (h : Prep it0 filterSlots X G it R) {k : VecMem}
    (hk : it.key = some k) (hm : it.mIter2 = .null) (hi : it.indirect = false) (plus : Bool) :
    Runs (initRrsetLeftMem it plus) R (initRrsetLeft it.q plus) (InitOk it0 X G) (InitFail G) := by
  unfold initRrsetLeftMem initRrsetLeft
  refine .try (fun key e => .ret ?_) (fun _ => .pure (h.failed hm))
  refine (does_setKey h hk _).bind ?_
  rintro _ _ ⟨rfl, rfl⟩
  refine (does_filterIf (fr' := .filterRrtype :: .filterBailiwick :: lateSlots) plus (h.keyLen _) (by decide)
    (fun _ h => List.mem_cons_of_mem _ h)).bind ?_
  rintro it1 R1 ⟨h1, e1⟩
  refine (does_filterIf (fr' := .filterBailiwick :: lateSlots) _ h1 (by decide)
    (fun _ h => List.mem_cons_of_mem _ h)).bind ?_
  rintro it3 R3 ⟨h3, e3⟩
  refine (does_filterIf (fr' := lateSlots) _ h3 (by decide) (fun _ h => List.mem_cons_of_mem _ h)).bind ?_
  rintro it4 R4 ⟨h4, e4⟩
  exact does_done h4 _ ((e4.indirect.trans (e3.indirect.trans e1.indirect)).trans hi)

theorem addRrtype_ne_fail (k : Bytes) (t : Nat) : addRrtype k t ≠ .fail := by
  unfold addRrtype
  split <;> simp

theorem runs_rrsetExact {it0 it : QIterMem} {X : List Nat} {G R : List (Nat × Bytes)} (h : Prep it0 filterSlots X G it R) {k : VecMem}
    (hk : it.key = some k) (hm : it.mIter2 = .null) (hi : it.indirect = false) :
    Runs (initRrsetExactMem it) R (initRrsetExact it.q) (InitOk it0 X G) (InitFail G) := by
  unfold initRrsetExactMem initRrsetExact
  refine .try (fun rev e => ?_) (fun _ => ?_)
  · simp only
    by_cases hl : it.q.name.length > maxLenName
    · rw [if_pos hl, if_pos hl]
      exact ⟨nofun, nofun, fun f e h H => by cases e; rfl⟩
    rw [if_neg hl, if_neg hl]
    by_cases hr : it.q.doRrtype = true
    · rw [if_pos hr, if_pos hr]
      refine .run (addRrtype_ne_fail _ _) fun key _ => .ret ?_
      refine (does_setKey h hk _).bind ?_
      rintro _ _ ⟨rfl, rfl⟩
      exact does_done ((h.keyLen _).fewer (by decide)) _ hi
    · rw [if_neg hr, if_neg hr]
      refine .ret ?_
      refine (does_setKey h hk _).bind ?_
      rintro _ _ ⟨rfl, rfl⟩
      refine (does_filterIf (fr := lateSlots) (fr' := lateSlots) _ ((h.keyLen _).fewer (by decide)) (by decide)
        (fun _ h => List.mem_cons_of_mem _ h)).bind ?_
      rintro it4 R4 ⟨h4, e4⟩
      exact does_done h4 _ (e4.indirect.trans hi)
  · simp only
    obtain ⟨-, h1, -, hp⟩ := h.failed hm
    refine .perm (hp.trans (show List.Perm _ (vblk it.key ++ (zs ({ it with key := none } : QIterMem).objs ++ G)) by
      unfold QIterMem.objs
      simp only [zs_append, zs_cons, zs_vids, vblk]
      blocks)) ?_
    refine (does_vecDestroy _ _).bind ?_
    rintro _ _ rfl
    exact .pure ⟨rfl, h1, hm, List.Perm.refl _⟩

theorem runs_rrset {it0 it : QIterMem} {X : List Nat} {G R : List (Nat × Bytes)} (h : Prep it0 filterSlots X G it R)
    (hk : it.key = none) (hm : it.mIter2 = .null) (hi : it.indirect = false) (o : Heap → Bool) :
    Runs (initRrsetMem o it) R (initRrset it.q) (InitOk it0 X G) (InitFail G) := by
  unfold initRrsetMem initRrset
  refine .pre (does_newKey h hk) ?_
  rintro _ R1 ⟨⟨k, rfl⟩, h1⟩
  simp only
  cases isLeftWildcard it.q.name with
  | some plus => exact runs_rrsetLeft h1 rfl hm hi plus
  | none =>
    cases isRightWildcard it.q.name with
    | some plus => exact .ret (does_rrsetRight h1 rfl hm o plus _ rfl)
    | none => exact runs_rrsetExact h1 rfl hm hi

theorem does_rdataRight {it0 it : QIterMem} {X : List Nat} {G R : List (Nat × Bytes)} (h : Prep it0 (.filterSingleLabel :: lateSlots) X G it R)
    {k : VecMem} (hk : it.key = some k) (plus : Bool) (p : Plan) (hi : it.indirect = p.indirect.isSome) :
    Does (initRdataRightMem it plus) R (InitOk it0 X G p) := by
  unfold initRdataRightMem
  refine (does_setKey h hk _).bind ?_
  rintro _ _ ⟨rfl, rfl⟩
  refine (does_filterIf (fr' := lateSlots) plus (h.keyLen _) (by decide)
    (fun _ h => List.mem_cons_of_mem _ h)).bind ?_
  rintro it1 R1 ⟨h1, e1⟩
  exact does_done h1 p (e1.indirect.trans hi)

theorem runs_rdataLeft {it0 it : QIterMem} {X : List Nat} {G R : List (Nat × Bytes)} (h : Prep it0 (.filterSingleLabel :: lateSlots) X G it R)
    {k : VecMem} (hk : it.key = some k) (hm : it.mIter2 = .null) (o : Heap → Bool) (plus : Bool) :
    Runs (initRdataLeftMem o it plus) R (initRdataLeft it.q plus) (InitOk it0 X G) (InitFail G) := by
  unfold initRdataLeftMem initRdataLeft
  refine .try (fun key e => .ret ?_) (fun _ => .pure (h.failed hm))
  refine (does_setKey h hk _).bind ?_
  rintro _ _ ⟨rfl, rfl⟩
  refine (does_indexFilterIf (fr' := lateSlots) plus (h.keyLen _) (by decide)
    (fun _ h => List.mem_cons_of_mem _ h)).bind ?_
  rintro it1 R1 ⟨h1, e1⟩
  refine (does_second h1 (e1.second.trans hm) o _ _).bind ?_
  intro m R2 h2
  exact does_done h2 _ rfl

theorem runs_rdataExact {it0 it : QIterMem} {X : List Nat} {G R : List (Nat × Bytes)} (h : Prep it0 lateSlots X G it R)
    {k : VecMem} (hk : it.key = some k) (hi : it.indirect = false) :
    Runs (initRdataExactMem it) R (initRdataExact it.q) (InitOk it0 X G) (InitFail G) := by
  have e : initRdataExact it.q = ((if it.q.doRrtype ∧ standaloneTypes.contains it.q.rrtype then
      addRrtype (2 :: it.q.name) it.q.rrtype else .ok (2 :: it.q.name)) >>= fun key =>
      .ok { onSource := [rdataNameFilter it.q], view := .pfx key }) := by
    unfold initRdataExact
    split <;> rfl
  rw [e]
  unfold initRdataExactMem
  refine .run ?_ fun key _ => .ret ?_
  · split
    · exact addRrtype_ne_fail _ _
    · simp
  refine (does_setKey h hk _).bind ?_
  rintro _ _ ⟨rfl, rfl⟩
  exact does_done (h.keyLen _) _ hi

theorem runs_rdataName {it0 it : QIterMem} {X : List Nat} {G R : List (Nat × Bytes)} (h : Prep it0 filterSlots X G it R)
    (hk : it.key = none) (hm : it.mIter2 = .null) (hi : it.indirect = false) (o : Heap → Bool) :
    Runs (initRdataNameMem o it) R (initRdataName it.q) (InitOk it0 X G) (InitFail G) := by
  unfold initRdataNameMem initRdataName
  refine .pre (does_filterIf (s := .filterRrtype) (fr := filterSlots) (fr' := .filterSingleLabel :: lateSlots) true
    (h.fewer (by decide)) (by decide) (by decide)) ?_
  rintro it1 R1 ⟨h1, e1⟩
  refine .pre (does_newKey h1 (e1.key.trans hk)) ?_
  rintro _ R1 ⟨⟨k, rfl⟩, h2⟩
  simp only
  have hq : it1.q = it.q := h1.q.trans h.q.symm
  rw [← hq]
  cases isRightWildcard it1.q.name with
  | some plus => exact .ret (does_rdataRight h2 rfl plus _ (e1.indirect.trans hi))
  | none =>
    cases isLeftWildcard it1.q.name with
    | some plus => exact runs_rdataLeft h2 rfl (e1.second.trans hm) o plus
    | none => exact runs_rdataExact (h2.fewer (by decide)) rfl (e1.indirect.trans hi)

theorem assert_ne_fail (b : Bool) : Out.assert b ≠ .fail := by
  cases b <;> simp [Out.assert]

theorem incrementKey_ne_fail (k : Bytes) (n : Nat) : incrementKey k n ≠ .fail := by
  unfold incrementKey
  split <;> simp

theorem runs_rdataIp {it0 it : QIterMem} {X : List Nat} {G R : List (Nat × Bytes)} (h : Prep it0 filterSlots X G it R)
    (hk : it.key = none) (hk2 : it.key2 = none) (hi : it.indirect = false) :
    Runs (initRdataIpMem it) R (initRdataIp it.q) (InitOk it0 X G) (InitFail G) := by
  unfold initRdataIpMem initRdataIp
  refine .run (assert_ne_fail _) fun _ _ => ?_
  refine .run (assert_ne_fail _) fun _ _ => ?_
  refine .pre (does_newKey h hk) ?_
  rintro _ R1 ⟨⟨k, rfl⟩, h1⟩
  refine .run (addRrtype_ne_fail _ _) fun key _ => ?_
  refine .pre (does_setKey h1 rfl _) ?_
  rintro _ _ ⟨rfl, rfl⟩
  have h2 := h1.keyLen key.length
  simp only
  by_cases hl : it.q.ip2.length > 0
  · rw [if_pos hl, if_pos hl]
    refine .pre (does_vecInit _) ?_
    intro k2 R2 hp
    refine .run (addRrtype_ne_fail _ _) fun key2 _ => ?_
    refine .run (incrementKey_ne_fail _ _) ?_
    rintro ⟨c, key2'⟩ _
    refine .ret ?_
    simp only
    refine (does_vecTouch (fun b hb => hp.mem_iff.2 (List.mem_append_left _ hb))).bind ?_
    intro _ R' e
    rw [e]
    have h3 := h2.second_key (k := k2) hk2 key2'.length hp
    refine (does_filterIf (s := .filterRrtype) (fr := filterSlots) (fr' := lateSlots) _ (h3.fewer (by decide))
      (by decide) (by decide)).bind ?_
    rintro it1 R1 ⟨h1, e1⟩
    exact does_done h1 _ (e1.indirect.trans hi)
  · rw [if_neg hl, if_neg hl]
    refine .ret ?_
    refine (does_filterIf (s := .filterRrtype) (fr := filterSlots) (fr' := lateSlots) _ (h2.fewer (by decide))
      (by decide) (by decide)).bind ?_
    rintro it1 R1 ⟨h1, e1⟩
    exact does_done h1 _ (e1.indirect.trans hi)

theorem runs_rdataRaw {it0 it : QIterMem} {X : List Nat} {G R : List (Nat × Bytes)} (h : Prep it0 filterSlots X G it R)
    (hk : it.key = none) (hi : it.indirect = false) :
    Runs (initRdataRawMem it) R (initRdataRaw it.q) (InitOk it0 X G) (InitFail G) := by
  unfold initRdataRawMem initRdataRaw
  refine .pre (does_newKey h hk) ?_
  rintro _ R1 ⟨⟨k, rfl⟩, h1⟩
  refine .run (by unfold rdataBytes; split <;> split <;> simp) fun d _ => .ret ?_
  refine (does_setKey h1 rfl _).bind ?_
  rintro _ _ ⟨rfl, rfl⟩
  refine (does_filterIf (s := .filterRrtype) (fr := filterSlots) (fr' := lateSlots) _ ((h1.keyLen _).fewer (by decide))
    (by decide) (by decide)).bind ?_
  rintro it1 R1 ⟨h1, e1⟩
  exact does_done h1 _ (e1.indirect.trans hi)

theorem does_plain {it0 it : QIterMem} {X : List Nat} {G R : List (Nat × Bytes)} (h : Prep it0 filterSlots X G it R)
    (hk : it.key = none) (n : Nat) (p : Plan) (hi : it.indirect = p.indirect.isSome) :
    Does (initPlainMem it n) R (InitOk it0 X G p) := by
  unfold initPlainMem
  refine (does_newKey h hk).bind ?_
  rintro _ R1 ⟨⟨k, rfl⟩, h1⟩
  refine (does_setKey h1 rfl _).bind ?_
  rintro _ _ ⟨rfl, rfl⟩
  exact does_done ((h1.keyLen _).fewer (by decide)) _ hi

theorem runs_initKind {it0 it : QIterMem} {X : List Nat} {G R : List (Nat × Bytes)} (h : Prep it0 filterSlots X G it R)
    (hk : it.key = none) (hk2 : it.key2 = none) (hm : it.mIter2 = .null) (hi : it.indirect = false) (o : Heap → Bool) :
    Runs (initKindMem o it) R (initKind it.q) (InitOk it0 X G) (InitFail G) := by
  unfold initKindMem initKind
  cases it.q.qType with
  | rrset => exact runs_rrset h hk hm hi o
  | rdataName => exact runs_rdataName h hk hm hi o
  | rdataIp => exact runs_rdataIp h hk hk2 hi
  | rdataRaw => exact runs_rdataRaw h hk hi
  | timeRange => exact .ret (does_plain h hk _ _ hi)
  | sourceInfo => exact .ret (does_plain h hk _ _ hi)
  | version => exact .ret (does_plain h hk _ _ hi)

/-! ## The later stages -/

theorem Prep.withSource {it0 it : QIterMem} {fr : List Stage} {X : List Nat} {G R : List (Nat × Bytes)}
    (h : Prep it0 fr X G it R) (s : SrcMem) (hs : s.needs ⊆ it.objs ++ X) (hp : it0.removeStrict = none → s.plain) :
    Prep it0 fr X G { it with source := s } R := { h with source := hs, plain := hp }

theorem Prep.frame {it0 it : QIterMem} {fr : List Stage} {X : List Nat} {G R : List (Nat × Bytes)}
    (h : Prep it0 fr X G it R) (b : Nat × Bytes) : Prep it0 fr X (b :: G) it (b :: R) :=
  { h with
    perm := (h.perm.cons b).trans (by blocks)
    ext := fun _ hx => List.mem_cons_of_mem _ (h.ext hx) }

theorem Prep.withJoin {it0 it : QIterMem} {fr : List Stage} {X : List Nat} {G R : List (Nat × Bytes)}
    (h : Prep it0 fr X G it R) : Prep { it0 with ljoin := it.ljoin } fr X G it R := { h with ljoin := rfl }

theorem does_prefilter {it0 it : QIterMem} {X : List Nat} {G R : List (Nat × Bytes)} (h : Prep it0 lateSlots X G it R) :
    Does (prefilterMem it) R fun it' R' => Prep it0 [.filterTime, .filterOffset] X G it' R' ∧
      it'.indirect = it.indirect := by
  unfold prefilterMem
  by_cases hb : it.q.bounds.any = true
  · rw [if_pos hb]
    refine (does_filterIf (fr' := [.filterTime, .filterOffset]) true h (by decide)
      (fun _ h => List.mem_cons_of_mem _ h)).bind ?_
    rintro it1 R1 ⟨h1, e1⟩
    cases hr : it1.removeStrict with
    | none => exact .pure ⟨h1, e1.indirect⟩
    | some r =>
      have hin : ∀ x ∈ rids (some r), x ∈ it1.objs := by
        intro x hx
        unfold QIterMem.objs
        rw [hr]
        simp [hx]
      refine (does_touch ?_).bind ?_
      · refine ids_perm h1.perm.symm ?_
        simp [hin r.obj (by simp [rids])]
      intro _ R' e
      rw [e]
      have h2 := h1.withSource (.remove r.obj r.src r.vec r.rm it1.source) ?_ (by rw [← h1.remove, hr]; nofun)
      · rw [hr] at h2
        exact .pure ⟨h2, e1.indirect⟩
      intro x hx
      simp only [SrcMem.needs, List.mem_cons, List.mem_append] at hx
      rcases hx with rfl | rfl | rfl | rfl | hx | hx
      · exact List.mem_append_left _ (hin _ (by simp [rids]))
      · exact List.mem_append_left _ (hin _ (by simp [rids]))
      · exact List.mem_append_left _ (hin _ (by simp [rids]))
      · exact List.mem_append_left _ (hin _ (by simp [rids]))
      · exact List.mem_append_right _ (h1.removeLive r (by rw [← h1.remove, hr]) hx)
      · exact h1.source hx
  · rw [if_neg hb]
    exact .pure ⟨h.fewer (fun _ h => List.mem_cons_of_mem _ h), rfl⟩

theorem does_fill {it0 it : QIterMem} {fr : List Stage} {X : List Nat} {G R : List (Nat × Bytes)}
    (h : Prep it0 fr X G it R) (hj : it0.ljoin = none) :
    Does (fillMem it) R fun it' R' => Prep { it0 with ljoin := it'.ljoin } fr X G it' R' ∧
      it'.indirect = it.indirect := by
  unfold fillMem
  cases hm : it.fillMerger with
  | none =>
    exact .pure ⟨h.withJoin, rfl⟩
  | some p =>
    have hin : p ∈ it.objs := by
      unfold QIterMem.objs
      rw [hm]
      simp
    refine (does_touch ?_).bind ?_
    · refine ids_perm h.perm.symm ?_
      simp [hin]
    intro _ R' e
    rw [e]
    refine (does_stageInit _).bind ?_
    intro j R1 hp
    have ho : ({ it with ljoin := some j } : QIterMem).objs.Perm (sids (some j) ++ it.objs) := by
      unfold QIterMem.objs
      simp only [h.ljoin, hj, sids]
      blocks
    have h' : Prep { it0 with ljoin := some j } fr X G { it with ljoin := some j } R1 :=
      { h with
        ljoin := rfl
        perm := more_blocks hp h.perm ho
        source := sub_more h.source ho
        index := sub_more h.index ho
        second := sub_more h.second ho }
    have h2 := h'.withSource (.ljoin j.obj j.src it.source (p :: it.self :: it.fill)) ?_ h.plain
    · rw [hm] at h2
      exact .pure ⟨h2, rfl⟩
    intro x hx
    simp only [SrcMem.needs, List.mem_cons, List.mem_append] at hx
    rcases hx with rfl | rfl | hx | rfl | rfl | hx
    · exact List.mem_append_left _ (ho.mem_iff.2 (by simp [sids]))
    · exact List.mem_append_left _ (ho.mem_iff.2 (by simp [sids]))
    · exact sub_more h.source ho hx
    · exact List.mem_append_left _ (ho.mem_iff.2 (List.mem_append_right _ hin))
    · exact List.mem_append_left _ (by simp [QIterMem.objs])
    · exact List.mem_append_right _ (h.fillLive (h.fill ▸ hx))

/-- A query iterator in use: what its parts refer to; `X` is what it refers to without owning it. -/
structure QIterMem.Good (X : List Nat) (it : QIterMem) : Prop where
  source : it.source.needs ⊆ it.objs ++ X
  first : it.mIter.needs ⊆ it.objs ++ X
  second : it.mIter2.needs ⊆ it.objs ++ X
  leaks : it.mIter2.leaks = []
  plain : it.removeStrict = none → it.source.plain ∧ it.mIter.leaks = []
  live : it.query ∈ X

theorem sub_live {l A m X : List Nat} {G R : List (Nat × Bytes)} (h : l ⊆ A ++ X) (hx : X ⊆ ids G)
    (hp : R.Perm (zs (A ++ m) ++ G)) : l ⊆ ids R := by
  intro x h'
  refine ids_perm hp.symm ?_
  have := h h'
  simp only [List.mem_append, ids_append, ids_zs] at this ⊢
  rcases this with h | h
  · exact .inl (.inl h)
  · exact .inr (hx h)

/-- The blocks of an iterator of the library. -/
def DIterMem.all (d : DIterMem) : List Nat := d.self :: d.it.all

theorem does_finish {it0 it : QIterMem} {X : List Nat} {G R : List (Nat × Bytes)} (h : Prep it0 lateSlots X G it R)
    (hj : it0.ljoin = none) (o : Heap → Bool) (d : Nat) :
    Does (finishMem o it d) R fun a R' => ∃ it', a = some ⟨d, it'⟩ ∧ it'.Good X ∧ it'.q = it0.q ∧
      it'.query = it0.query ∧ it'.removeStrict = it0.removeStrict ∧ it'.indirect = it.indirect ∧
      R'.Perm (zs it'.all ++ G) := by
  unfold finishMem
  refine (does_prefilter h).bind ?_
  rintro it1 R1 ⟨h1, e1⟩
  refine (does_fill h1 hj).bind ?_
  rintro it2 R2 ⟨h2, e2⟩
  refine (does_filterIf (fr' := [.filterOffset]) _ h2 (by decide) (fun _ h => List.mem_cons_of_mem _ h)).bind ?_
  rintro it3 R3 ⟨h3, e3⟩
  refine (does_filterIf (fr' := []) _ h3 (by decide) (fun _ h => List.mem_cons_of_mem _ h)).bind ?_
  rintro it4 R4 ⟨h4, e4⟩
  have ei : it4.indirect = it.indirect := e4.indirect.trans (e3.indirect.trans (e2.trans e1))
  by_cases hm : it4.mIter2.isNull = true
  · rw [if_pos hm]
    refine (does_openIter o _ _ it4.source R4 (sub_live h4.source h4.ext h4.perm)).bind ?_
    rintro m R5 ⟨hp, k2, k3⟩
    refine .pure ⟨_, rfl, ⟨h4.source, fun x hx => h4.source (k2 hx), h4.second, h4.leaks, ?_, ?_⟩, h4.q, h4.query,
      h4.remove, ei, ?_⟩
    · intro hr
      have := h4.plain (h4.remove ▸ hr)
      exact ⟨this, k3 this⟩
    · exact h4.query ▸ h4.live
    · refine hp.trans ((h4.perm.append_left _).trans ?_)
      show List.Perm _ (zs (it4.objs ++ m.ids ++ it4.mIter2.ids) ++ G)
      simp only [zs_append]
      blocks
  · rw [if_neg hm]
    refine .pure ⟨it4, rfl, ⟨h4.source, by rw [h4.first]; nofun, h4.second, h4.leaks, ?_, ?_⟩, h4.q, h4.query,
      h4.remove, ei, ?_⟩
    · intro hr
      exact ⟨h4.plain (h4.remove ▸ hr), by rw [h4.first]; rfl⟩
    · exact h4.query ▸ h4.live
    · refine h4.perm.trans ?_
      unfold QIterMem.all
      rw [h4.first]
      simp only [zs_append, IterMem.ids, zs_nil]
      blocks

/-- The outcome of opening an iterator. -/
def IterOk (it0 : QIterMem) (X : List Nat) (G : List (Nat × Bytes)) (p : Plan) (a : Option DIterMem)
    (R' : List (Nat × Bytes)) : Prop :=
  ∃ d, a = some d ∧ d.it.Good X ∧ d.it.q = it0.q ∧ d.it.query = it0.query ∧ d.it.removeStrict = it0.removeStrict ∧
    d.it.indirect = p.indirect.isSome ∧ R'.Perm (zs d.all ++ G)

theorem runs_iterCommon {it0 : QIterMem} {X : List Nat} {G R : List (Nat × Bytes)}
    (h : Prep it0 filterSlots X G it0 R) (hj : it0.ljoin = none) (h1 : it0.timeout = none) (h2 : it0.timeoutIndex = none)
    (hk : it0.key = none) (hk2 : it0.key2 = none) (hm : it0.mIter2 = .null) (hi : it0.indirect = false)
    (o : Heap → Bool) :
    Runs (iterCommonMem o it0) R (initKind it0.q) (IterOk it0 X G) (fun a R' => a = none ∧ R'.Perm G) := by
  unfold iterCommonMem
  refine .pre (does_touch (R := R) ?_) ?_
  · exact sub_live (l := [it0.query]) (fun x hx => by
      simp only [List.mem_cons, List.not_mem_nil, or_false] at hx
      exact hx ▸ List.mem_append_right _ h.live) h.ext h.perm (by simp)
  intro _ R1 e
  rw [e]
  refine .pre (does_timeouts h h1 h2) ?_
  rintro it2 R2 ⟨p2, e1, e2, e3, e4⟩
  have hq := p2.q
  have hr := runs_initKind p2 (e1.trans hk) (e2.trans hk2) (e3.trans hm) (e4.trans hi) o
  rw [hq] at hr
  have hs : initKind it0.q = (initKind it0.q >>= fun p => .ok p) := by
    cases initKind it0.q <;> rfl
  rw [hs]
  refine hr.seq ?_ ?_
  · rintro p ⟨it3, d⟩ R' ⟨d', R3, rfl, p3, rfl, hi3⟩
    refine .ret ?_
    refine (does_finish (p3.frame (d', [])) hj o d').weaken ?_
    rintro _ R'' ⟨it', rfl, g, k1, k2, k3, k4, hp⟩
    refine ⟨_, rfl, g, k1, k2, k3, k4.trans hi3, hp.trans ?_⟩
    simp only [DIterMem.all, zs_cons]
    blocks
  · rintro ⟨it3, d⟩ R' ⟨rfl, k1, k2, hp⟩
    simp only at k1 k2 hp ⊢
    refine .perm (hp.trans (show List.Perm _ (zs it3.all ++ G) by
      unfold QIterMem.all; rw [k1, k2]; simp [IterMem.ids])) ?_
    refine (does_queryIterFree it3 G (by rw [k1]; nofun) (by rw [k2]; nofun)).bind ?_
    intro _ R4 hp
    rw [k1, k2] at hp
    exact .pure ⟨rfl, hp⟩

/-- `dnstable_query_iter` gives an iterator, or NULL if the query is malformed; then nothing is left. -/
theorem runs_queryIter (o : Heap → Bool) (m : QueryMem) (B : List Nat) (G : List (Nat × Bytes)) (hB : B ⊆ ids G)
    (hq : m.self ∈ ids G) :
    Runs (queryIterMem o m B) G (initKind m.q)
      (fun p a R' => ∃ d, a = some d ∧ d.it.Good (m.self :: B) ∧ d.it.q = m.q ∧ d.it.query = m.self ∧
        d.it.removeStrict = none ∧ d.it.indirect = p.indirect.isSome ∧ R'.Perm (zs d.all ++ G))
      (fun a R' => a = none ∧ R'.Perm G) := by
  unfold queryIterMem
  refine .pre (does_alloc _ _) ?_
  rintro p _ ⟨rfl, -⟩
  refine runs_iterCommon (it0 := { self := p, query := m.self, q := m.q, source := .base B, index := .base B })
    ?_ rfl rfl rfl rfl rfl rfl rfl o
  refine
    { perm := by simp [QIterMem.objs, sids, rids, vids, IterMem.ids]
      source := fun x hx => List.mem_append_right _ (List.mem_cons_of_mem _ hx)
      index := fun x hx => List.mem_append_right _ (List.mem_cons_of_mem _ hx)
      second := nofun, first := rfl, leaks := rfl
      plain := fun _ => trivial, plainIndex := trivial
      free := fun _ _ => rfl, slots := fun _ h => h
      q := rfl, query := rfl, self := rfl, ljoin := rfl, merger := rfl, fill := rfl, remove := rfl
      live := List.mem_cons_self
      fillLive := nofun, removeLive := nofun
      ext := ?_ }
  intro x hx
  rcases List.mem_cons.1 hx with rfl | hx
  · exact hq
  · exact hB hx

/-! ## Iteration -/

/-- `x`, started with the blocks `R`, ends with blocks as `Q` says, or with one of the faults. -/
def Safe {α : Type} (Fl : Fault → Prop) (x : Mem α) (R : List (Nat × Bytes)) (Q : α → List (Nat × Bytes) → Prop) :
    Prop :=
  ∀ h, Owned h R → (∃ a h' R', x h = .ok (a, h') ∧ Owned h' R' ∧ Q a R') ∨ ∃ f, x h = .fault f ∧ Fl f

theorem Does.safe {α : Type} {Fl : Fault → Prop} {x : Mem α} {R : List (Nat × Bytes)}
    {Q : α → List (Nat × Bytes) → Prop} (h : Does x R Q) : Safe Fl x R Q := fun hp H => .inl (h hp H)

theorem Safe.bind {α β : Type} {Fl : Fault → Prop} {x : Mem α} {k : α → Mem β} {R : List (Nat × Bytes)}
    {P : α → List (Nat × Bytes) → Prop} {Q : β → List (Nat × Bytes) → Prop} (hx : Safe Fl x R P)
    (hk : ∀ a R', P a R' → Safe Fl (k a) R' Q) : Safe Fl (x >>= k) R Q := by
  intro h H
  rcases hx h H with ⟨a, h1, R1, e1, H1, q1⟩ | ⟨f, e, hf⟩
  · have hb : (x >>= k) h = k a h1 := by
      show (x h >>= fun p => k p.1 p.2) = _
      rw [e1]
      rfl
    rw [hb]
    exact hk a R1 q1 h1 H1
  · refine .inr ⟨f, ?_, hf⟩
    show (x h >>= fun p => k p.1 p.2) = _
    rw [e]
    rfl

theorem Safe.weaken {α : Type} {Fl Fl' : Fault → Prop} {x : Mem α} {R : List (Nat × Bytes)}
    {P Q : α → List (Nat × Bytes) → Prop} (hx : Safe Fl x R P) (hf : ∀ f, Fl f → Fl' f)
    (hq : ∀ a R', P a R' → Q a R') : Safe Fl' x R Q := by
  intro h H
  rcases hx h H with ⟨a, h1, R1, e1, H1, q1⟩ | ⟨f, e, h'⟩
  · exact .inl ⟨a, h1, R1, e1, H1, hq a R1 q1⟩
  · exact .inr ⟨f, e, hf f h'⟩

theorem Safe.perm {α : Type} {Fl : Fault → Prop} {x : Mem α} {R R' : List (Nat × Bytes)}
    {Q : α → List (Nat × Bytes) → Prop} (hp : R.Perm R') (hx : Safe Fl x R' Q) : Safe Fl x R Q :=
  fun h H => hx h (H.mono hp)

theorem Runs.safe {α β : Type} {x : Mem α} {R : List (Nat × Bytes)} {o : Out β}
    {Q : β → α → List (Nat × Bytes) → Prop} {Qf : α → List (Nat × Bytes) → Prop} (h : Runs x R o Q Qf) :
    Safe (fun f => o = .fault f) x R fun a R' => (∃ b, o = .ok b ∧ Q b a R') ∨ (o = .fail ∧ Qf a R') := by
  intro hp H
  cases ho : o with
  | ok b =>
    obtain ⟨a, h', R', e, H', q⟩ := h.ok b ho hp H
    exact .inl ⟨a, h', R', e, H', .inl ⟨b, rfl, q⟩⟩
  | fail =>
    obtain ⟨a, h', R', e, H', q⟩ := h.fail ho hp H
    exact .inl ⟨a, h', R', e, H', .inr ⟨rfl, q⟩⟩
  | fault f => exact .inr ⟨f, h.fault f ho hp H, rfl⟩

/-- The blocks of an entry, if there is one. -/
def eblk : Option EntryMem → List (Nat × Bytes)
  | none => []
  | some m => m.own

/-- An iterator in use with its blocks: `L` has been left behind. -/
structure QIterMem.At (it0 : QIterMem) (X L : List Nat) (G : List (Nat × Bytes)) (it : QIterMem)
    (R : List (Nat × Bytes)) : Prop where
  good : it.Good X
  perm : R.Perm (zs it.all ++ (zs L ++ G))
  lost : it.removeStrict = none → L = []
  self : it.self = it0.self
  query : it.query = it0.query
  q : it.q = it0.q
  remove : it.removeStrict = it0.removeStrict
  ext : X ⊆ ids G

theorem does_scratch {it0 it : QIterMem} {X L : List Nat} {G R : List (Nat × Bytes)} (h : QIterMem.At it0 X L G it R) :
    Does (scratchMem it) R fun it' R' => QIterMem.At it0 X L G it' R' ∧ it'.mIter = it.mIter := by
  unfold scratchMem
  cases hk : it.key2 with
  | some k =>
    refine (does_vecTouch (fun b hb => h.perm.mem_iff.2 ?_)).bind ?_
    · simp only [VecMem.own, List.mem_cons, List.not_mem_nil, or_false] at hb
      unfold QIterMem.all QIterMem.objs
      rw [hk]
      rcases hb with rfl | rfl <;> simp [vids, vblk, VecMem.own]
    · intro _ R' e
      rw [e]
      exact .pure ⟨h, rfl⟩
  | none =>
    refine (does_vecInit _).bind ?_
    intro k R1 hp
    have ho : ({ it with key2 := some k } : QIterMem).objs.Perm (vids (some k) ++ it.objs) := by
      unfold QIterMem.objs
      simp only [hk, vids]
      blocks
    refine .pure ⟨{ h with
      good :=
        { source := sub_more h.good.source ho
          first := sub_more h.good.first ho
          second := sub_more h.good.second ho
          leaks := h.good.leaks
          plain := h.good.plain
          live := h.good.live }
      perm := ?_ }, rfl⟩
    refine hp.trans ((h.perm.append_left _).trans ?_)
    have hz := zs_perm ho
    unfold QIterMem.all
    refine List.perm_iff_count.2 fun x => ?_
    have hc := List.perm_iff_count.1 hz x
    simp only [zs_append, List.count_append, zs_vids, vblk] at hc ⊢
    omega

theorem QIterMem.At.withFirst {it0 it : QIterMem} {X L : List Nat} {G R R' : List (Nat × Bytes)}
    (h : QIterMem.At it0 X L G it R) (m : IterMem) (L' : List Nat) (hn : m.needs ⊆ it.objs ++ X)
    (hl : it.removeStrict = none → m.leaks = [] ∧ L' = [])
    (hp : R'.Perm (zs m.ids ++ (zs it.objs ++ (zs it.mIter2.ids ++ (zs L' ++ G))))) :
    QIterMem.At it0 X L' G { it with mIter := m } R' :=
  { h with
    good :=
      { source := h.good.source
        first := hn
        second := h.good.second
        leaks := h.good.leaks
        plain := fun hr => ⟨(h.good.plain hr).1, (hl hr).1⟩
        live := h.good.live }
    lost := fun hr => (hl hr).2
    perm := hp.trans (by
      show List.Perm _ (zs (it.objs ++ m.ids ++ it.mIter2.ids) ++ (zs L' ++ G))
      simp only [zs_append]; blocks) }

theorem QIterMem.At.sub {it0 it : QIterMem} {X L : List Nat} {G R : List (Nat × Bytes)}
    (h : QIterMem.At it0 X L G it R) {l : List Nat} (hl : l ⊆ it.objs ++ X) {S : List (Nat × Bytes)} :
    l ⊆ ids (zs it.objs ++ (S ++ (zs L ++ G))) := by
  intro x hx
  have := hl hx
  simp only [List.mem_append, ids_append, ids_zs] at this ⊢
  rcases this with h' | h'
  · exact .inl h'
  · exact .inr (.inr (.inr (h.ext h')))

/-- What an entry handed out is. -/
def Handed (ok : Bytes → Bytes → Prop) (e : Option EntryMem) : Prop :=
  ∀ m, e = some m → m.rdatas.length = m.e.rdatas.length ∧ ∃ k v, ok k v ∧ entryDecode k v = .ok m.e

theorem safe_qAct {it0 it : QIterMem} {X L : List Nat} {G R : List (Nat × Bytes)} (h : QIterMem.At it0 X L G it R)
    (o : Heap → Bool) (a : QAct) :
    Safe (fun f => ∃ k v, a = .deliver k v ∧ entryDecode k v = .fault f) (qActMem o it a) R fun r R' =>
      ∃ L' R2, QIterMem.At it0 X L' G r.1 R2 ∧ R'.Perm (eblk r.2 ++ R2) ∧ Handed (fun k v => a = .deliver k v) r.2 := by
  unfold qActMem
  cases a with
  | step a =>
    refine Does.safe ?_
    refine .perm (R' := zs it.mIter.ids ++ (zs it.objs ++ (zs it.mIter2.ids ++ (zs L ++ G)))) (h.perm.trans (by
      simp only [QIterMem.all, zs_append]; blocks)) ?_
    refine (does_act o it.mIter a _ (h.sub h.good.first)).bind ?_
    rintro m R' ⟨hp, h2, h3⟩
    refine .pure ⟨L, R', h.withFirst m L (h2 ▸ h.good.first) (fun hr => ⟨?_, h.lost hr⟩) hp, List.Perm.refl _, nofun⟩
    rw [h3]
    exact (h.good.plain hr).2
  | index a =>
    refine Does.safe ?_
    refine .perm (R' := zs it.mIter2.ids ++ (zs it.objs ++ (zs it.mIter.ids ++ (zs L ++ G)))) (h.perm.trans (by
      simp only [QIterMem.all, zs_append]; blocks)) ?_
    refine (does_act o it.mIter2 a _ (h.sub h.good.second)).bind ?_
    rintro m R' ⟨hp, h2, h3⟩
    refine .pure ⟨L, R', { h with
      good :=
        { source := h.good.source
          first := h.good.first
          second := h2 ▸ h.good.second
          leaks := h3.trans h.good.leaks
          plain := h.good.plain
          live := h.good.live }
      perm := hp.trans (by
        show List.Perm _ (zs (it.objs ++ it.mIter.ids ++ m.ids) ++ (zs L ++ G))
        simp only [zs_append]; blocks) }, List.Perm.refl _, nofun⟩
  | scratch =>
    refine Does.safe ?_
    refine (does_scratch h).bind ?_
    rintro it' R' ⟨h', -⟩
    exact .pure ⟨L, R', h', List.Perm.refl _, nofun⟩
  | look len =>
    refine Does.safe ?_
    simp only
    split
    · next hc =>
      have hn : it.mIter = .null := by
        rw [Bool.and_eq_true] at hc
        revert hc
        cases it.mIter <;> simp [IterMem.isNull]
      refine (does_scratch h).bind ?_
      rintro it' R' ⟨h', e'⟩
      refine .perm (R' := zs it'.objs ++ (zs it'.mIter2.ids ++ (zs L ++ G))) (h'.perm.trans (by
        unfold QIterMem.all; rw [e', hn]; simp only [zs_append, IterMem.ids, zs_nil]; blocks)) ?_
      refine (does_openIter o len 0 it'.source _ (h'.sub h'.good.source)).bind ?_
      rintro m R2 ⟨hp, h2, h3⟩
      exact .pure ⟨L, R2, h'.withFirst m L (fun x hx => h'.good.source (h2 hx))
        (fun hr => ⟨h3 (h'.good.plain hr).1, h'.lost hr⟩) hp, List.Perm.refl _, nofun⟩
    · exact .pure ⟨L, R, h, List.Perm.refl _, nofun⟩
  | done =>
    refine Does.safe ?_
    simp only
    split
    · refine .perm (R' := zs it.mIter.ids ++ (zs it.objs ++ (zs it.mIter2.ids ++ (zs L ++ G)))) (h.perm.trans (by
        simp only [QIterMem.all, zs_append]; blocks)) ?_
      refine (does_destroyIter it.mIter _ (h.sub h.good.first)).bind ?_
      intro _ R' hp
      refine .pure ⟨it.mIter.leaks ++ L, R', h.withFirst .null _ nofun (fun hr => ⟨rfl, ?_⟩) (hp.trans ?_),
        List.Perm.refl _, nofun⟩
      · rw [(h.good.plain hr).2, h.lost hr]; rfl
      · simp only [IterMem.ids, zs_append, zs_nil]; blocks
    · exact .pure ⟨L, R, h, List.Perm.refl _, nofun⟩
  | deliver key val =>
    refine Safe.bind ((runs_entryDecode key val R).safe.weaken (fun f hf => ⟨key, val, rfl, hf⟩) (fun _ _ h => h)) ?_
    rintro e R' (⟨b, hb, m, rfl, rfl, hlen, hp⟩ | ⟨-, rfl, rfl⟩)
    · refine Does.safe (.pure ⟨L, R, h, hp, ?_⟩)
      rintro _ ⟨⟩
      exact ⟨hlen, key, val, rfl, hb⟩
    · exact Does.safe (.pure ⟨L, _, h, List.Perm.refl _, nofun⟩)

theorem safe_qActs {it0 it : QIterMem} {X L : List Nat} {G R : List (Nat × Bytes)} (h : QIterMem.At it0 X L G it R)
    (o : Heap → Bool) (as : List QAct) :
    Safe (fun f => ∃ k v, .deliver k v ∈ as ∧ entryDecode k v = .fault f) (qActsMem o it as) R fun r R' =>
      ∃ L' R2, QIterMem.At it0 X L' G r.1 R2 ∧ R'.Perm (eblk r.2 ++ R2) ∧
        Handed (fun k v => .deliver k v ∈ as) r.2 := by
  induction as generalizing it R L with
  | nil => exact Does.safe (.pure ⟨L, R, h, List.Perm.refl _, nofun⟩)
  | cons a as ih =>
    unfold qActsMem
    refine Safe.bind (P := fun _ R' => R' = R) (does_touchAll ?_).safe ?_
    · intro x hx
      refine ids_perm h.perm.symm ?_
      simp only [QIterMem.data, List.mem_cons, List.not_mem_nil, or_false] at hx
      rcases hx with rfl | rfl
      · simp [QIterMem.all, QIterMem.objs]
      · simp [h.ext h.good.live]
    intro _ R' e
    rw [e]
    refine Safe.bind ((safe_qAct h o a).weaken (fun f => ?_) (fun _ _ h => h)) ?_
    · rintro ⟨k, v, rfl, hf⟩
      exact ⟨k, v, List.mem_cons_self, hf⟩
    rintro ⟨it', e'⟩ R1 ⟨L1, R2, h2, hp, hd⟩
    simp only at h2 hp hd ⊢
    cases e' with
    | some m =>
      refine Does.safe (.pure ⟨L1, R2, h2, hp, ?_⟩)
      intro m' hm
      obtain ⟨hl, k, v, e, he⟩ := hd m' hm
      exact ⟨hl, k, v, e ▸ List.mem_cons_self, he⟩
    | none =>
      refine Safe.perm (R' := R2) (by simpa [eblk] using hp) ?_
      refine (ih h2).weaken ?_ ?_
      · rintro f ⟨k, v, hm, hf⟩
        exact ⟨k, v, List.mem_cons_of_mem _ hm, hf⟩
      · rintro r R' ⟨L', R3, h3, hp3, hd3⟩
        refine ⟨L', R3, h3, hp3, ?_⟩
        intro m' hm
        obtain ⟨hl, k, v, e, he⟩ := hd3 m' hm
        exact ⟨hl, k, v, List.mem_cons_of_mem _ e, he⟩

/-- An iterator of the library with its blocks. -/
structure DIterMem.At (d0 : DIterMem) (X L : List Nat) (G : List (Nat × Bytes)) (d : DIterMem)
    (R : List (Nat × Bytes)) : Prop where
  self : d.self = d0.self
  it : QIterMem.At d0.it X L ((d.self, []) :: G) d.it R

theorem safe_iterNext {d0 d : DIterMem} {X L : List Nat} {G R : List (Nat × Bytes)} (h : DIterMem.At d0 X L G d R)
    (o : Heap → Bool) (as : List QAct) :
    Safe (fun f => ∃ k v, .deliver k v ∈ as ∧ entryDecode k v = .fault f) (iterNextMem o d as) R fun r R' =>
      ∃ L' R2, DIterMem.At d0 X L' G r.1 R2 ∧ R'.Perm (eblk r.2 ++ R2) ∧
        Handed (fun k v => .deliver k v ∈ as) r.2 := by
  unfold iterNextMem
  refine Safe.bind (P := fun _ R' => R' = R) (does_touch ?_).safe ?_
  · refine ids_perm h.it.perm.symm ?_
    simp
  intro _ R' e
  rw [e]
  refine Safe.bind (safe_qActs h.it o as) ?_
  rintro ⟨it', e'⟩ R1 ⟨L1, R2, h2, hp, hd⟩
  exact Does.safe (.pure ⟨L1, R2, ⟨h.self, h2⟩, hp, hd⟩)

theorem does_iterDestroy {d0 d : DIterMem} {X L : List Nat} {G R : List (Nat × Bytes)} (h : DIterMem.At d0 X L G d R) :
    Does (iterDestroyMem (some d)) R fun a R' => a = none ∧ ∃ L', R'.Perm (zs L' ++ G) ∧
      (d.it.removeStrict = none → L' = []) := by
  unfold iterDestroyMem
  refine (does_touch ?_).bind ?_
  · refine ids_perm h.it.perm.symm ?_
    simp
  intro _ R' e
  rw [e]
  refine .perm h.it.perm ?_
  have hs : ∀ {l : List Nat}, l ⊆ d.it.objs ++ X → l ⊆ d.it.objs ++ ids (zs L ++ (d.self, []) :: G) := by
    intro l hl x hx
    have := hl hx
    simp only [List.mem_append, ids_append] at this ⊢
    rcases this with h' | h'
    · exact .inl h'
    · exact .inr (.inr (h.it.ext h'))
  refine (does_queryIterFree d.it _ (hs h.it.good.first) (hs h.it.good.second)).bind ?_
  intro _ R1 hp
  refine .perm (hp.trans (show List.Perm _ ((d.self, []) :: (zs (d.it.mIter.leaks ++ d.it.mIter2.leaks ++ L) ++ G)) by
    simp only [zs_append]; blocks)) ?_
  refine (does_free _ _ _).bind ?_
  rintro _ _ rfl
  refine .pure ⟨rfl, _, List.Perm.refl _, fun hr => ?_⟩
  rw [(h.it.good.plain hr).2, h.it.good.leaks, h.it.lost hr]
  rfl

/-! ## File sets -/

theorem At.of_open {d : DIterMem} {X : List Nat} {G R : List (Nat × Bytes)} (hg : d.it.Good X) (hx : X ⊆ ids G)
    (hp : R.Perm (zs d.all ++ G)) : DIterMem.At d X [] G d R :=
  ⟨rfl, hg, hp.trans (by simp only [DIterMem.all, zs_cons, zs_nil, List.nil_append]; blocks), fun _ => rfl, rfl, rfl, rfl, rfl,
    fun x h => List.mem_cons_of_mem _ (hx h)⟩

theorem does_entryDestroyOpt (e : Option EntryMem) (F R : List (Nat × Bytes)) {ok : Bytes → Bytes → Prop}
    (he : Handed ok e) (hp : R.Perm (eblk e ++ F)) : Does (entryDestroyMem e) R fun a R' => a = none ∧ R'.Perm F := by
  cases e with
  | none => exact .pure ⟨rfl, hp⟩
  | some m =>
    refine (does_entryDestroy m F R ⟨(he m rfl).1, hp⟩).weaken ?_
    rintro _ _ ⟨h, rfl⟩
    exact ⟨h, List.Perm.refl _⟩

/-- The faults of the entries that the steps decode. -/
def DecodeFault (as : List QAct) (f : Fault) : Prop := ∃ k v, .deliver k v ∈ as ∧ entryDecode k v = .fault f

theorem safe_lookTimes (o : Heap → Bool) (b : Bounds) (f : FileMem) (R : List (Nat × Bytes)) (hf : f.block ∈ ids R) :
    Safe (DecodeFault f.acts) (lookTimesMem o b f) R fun _ R' => R'.Perm R := by
  unfold lookTimesMem
  refine Safe.bind (does_queryInit .timeRange nofun R).safe ?_
  rintro q R1 ⟨hq, -, hp⟩
  refine Safe.bind (P := fun a R' => ∃ d, a = some d ∧ d.it.Good (q.self :: [f.block]) ∧ d.it.removeStrict = none ∧
    R'.Perm (zs d.all ++ R1)) ?_ ?_
  · have hr := runs_queryIter o q [f.block] R1 (fun x hx => by
      simp only [List.mem_cons, List.not_mem_nil, or_false] at hx
      exact hx ▸ ids_perm hp.symm (by simp [hf])) (ids_perm hp.symm (by simp [QueryMem.own]))
    have hi : initKind q.q = .ok { view := .pfx [254] } := by rw [hq]; rfl
    refine ((hr.ok _ hi).weaken ?_).safe
    rintro a R' ⟨d, h1, h2, -, -, h5, -, h7⟩
    exact ⟨d, h1, h2, h5, h7⟩
  rintro _ R2 ⟨d, rfl, hg, hrs, hp2⟩
  simp only
  have hat : DIterMem.At d (q.self :: [f.block]) [] R1 d R2 := At.of_open hg (fun x hx => by
      simp only [List.mem_cons, List.not_mem_nil, or_false] at hx
      rcases hx with rfl | rfl
      · exact ids_perm hp.symm (by simp [QueryMem.own])
      · exact ids_perm hp.symm (by simp [hf])) hp2
  refine Safe.bind (P := fun (r : Option DIterMem × Option EntryMem) R' => ∃ d' L' R3, r.1 = some d' ∧
    DIterMem.At d (q.self :: [f.block]) L' R1 d' R3 ∧
    R'.Perm (eblk r.2 ++ R3) ∧ Handed (fun k v => .deliver k v ∈ f.acts) r.2) ?_ ?_
  · refine Safe.bind (safe_iterNext hat o f.acts) ?_
    rintro ⟨d', e⟩ R3 ⟨L', R4, h1, h2, h3⟩
    exact Does.safe (.pure ⟨d', L', R4, rfl, h1, h2, h3⟩)
  rintro ⟨d1, e⟩ R3 ⟨d', L', R4, rfl, h1, h2, h3⟩
  simp only
  refine Does.safe ?_
  refine (does_entryDestroyOpt e R4 R3 h3 h2).bind ?_
  rintro _ R5 ⟨-, hp5⟩
  refine .perm hp5 ?_
  refine (does_iterDestroy h1).bind ?_
  rintro _ R6 ⟨-, L6, hp6, hl⟩
  rw [hl (h1.it.remove.trans hrs)] at hp6
  refine .perm (hp6.trans hp) ?_
  refine (does_queryDestroy q [] R).bind ?_
  rintro _ _ ⟨-, rfl⟩
  exact .pure (List.Perm.refl _)

/-- A query iterator over a file set before `dnstable_query_iter_common`. -/
structure Blank (m : QueryMem) (B : List Nat) (it : QIterMem) : Prop where
  query : it.query = m.self
  q : it.q = m.q
  first : it.mIter = .null
  second : it.mIter2 = .null
  filters : it.filters = fun _ => none
  ljoin : it.ljoin = none
  timeout : it.timeout = none
  timeoutIndex : it.timeoutIndex = none
  key : it.key = none
  key2 : it.key2 = none
  indirect : it.indirect = false
  fill : it.fill ⊆ B
  rm : ∀ r, it.removeStrict = some r → r.rm ⊆ B

/-- What the search for time ranges may change: the files to fill in or to remove. -/
structure SameBlocks (it it' : QIterMem) : Prop where
  objs : it'.objs = it.objs
  self : it'.self = it.self
  fsFilter : it'.fsFilter = it.fsFilter
  fsNoMerge : it'.fsNoMerge = it.fsNoMerge
  source : it'.source = it.source
  index : it'.index = it.index
  merger : it'.fillMerger = it.fillMerger
  remove : it'.removeStrict.isSome = it.removeStrict.isSome

theorem SameBlocks.refl (it : QIterMem) : SameBlocks it it := ⟨rfl, rfl, rfl, rfl, rfl, rfl, rfl, rfl⟩

theorem SameBlocks.trans {a b c : QIterMem} (h : SameBlocks a b) (h' : SameBlocks b c) : SameBlocks a c :=
  ⟨h'.objs.trans h.objs, h'.self.trans h.self, h'.fsFilter.trans h.fsFilter, h'.fsNoMerge.trans h.fsNoMerge,
    h'.source.trans h.source, h'.index.trans h.index, h'.merger.trans h.merger, h'.remove.trans h.remove⟩

theorem safe_timeFilter (o : Heap → Bool) {m : QueryMem} {B : List Nat} {it : QIterMem} (h : Blank m B it)
    (f : FileMem) (hf : f.block ∈ B) {R : List (Nat × Bytes)} (hR : it.objs ++ B ⊆ ids R) (hq : m.self ∈ ids R) :
    Safe (DecodeFault f.acts) (timeFilterMem o it f) R fun r R' => Blank m B r.1 ∧ SameBlocks it r.1 ∧ R'.Perm R := by
  unfold timeFilterMem
  refine Safe.bind (P := fun _ R' => R' = R) (does_touchAll ?_).safe ?_
  · intro x hx
    simp only [QIterMem.data, List.mem_cons, List.not_mem_nil, or_false] at hx
    rcases hx with rfl | rfl
    · exact hR (by simp [QIterMem.objs])
    · rw [h.query]; exact hq
  intro _ R' e
  rw [e]
  refine Safe.bind (safe_lookTimes o _ f R (hR (List.mem_append_right _ hf))) ?_
  intro r R1 hp
  have hin : ∀ x ∈ it.objs, x ∈ ids R1 := fun x hx => ids_perm hp.symm (hR (List.mem_append_left _ hx))
  refine Does.safe ?_
  cases r with
  | keep => exact .pure ⟨h, .refl _, hp⟩
  | fill =>
    simp only
    cases hm : it.fillMerger with
    | none => exact .pure ⟨h, .refl _, hp⟩
    | some p =>
      refine (does_touch (hin p (by unfold QIterMem.objs; rw [hm]; simp))).bind ?_
      intro _ R' e
      rw [e]
      refine .pure ⟨{ h with fill := ?_ }, ?_, hp⟩
      · intro x hx
        rcases List.mem_append.1 hx with hx | hx
        · exact h.fill hx
        · simp only [List.mem_cons, List.not_mem_nil, or_false] at hx
          exact hx ▸ hf
      · rw [← hm]
        exact ⟨rfl, rfl, rfl, rfl, rfl, rfl, rfl, rfl⟩
  | remove =>
    simp only
    cases hm : it.removeStrict with
    | none => exact .pure ⟨h, .refl _, hp⟩
    | some r =>
      have hr : ∀ x ∈ rids (some r), x ∈ it.objs := by
        intro x hx
        unfold QIterMem.objs
        rw [hm]
        simp [hx]
      refine (does_touch (hin _ (hr r.obj (by simp [rids])))).bind ?_
      intro _ R' e
      rw [e]
      refine Does.bind (Q := fun _ R' => R' = R1) ?_ ?_
      · unfold vecTouchMem
        refine (does_touch (hin _ (hr r.vec.self (by simp [rids])))).bind ?_
        intro _ R' e
        rw [e]
        exact does_touch (hin _ (hr r.vec.arr (by simp [rids])))
      intro _ R' e
      rw [e]
      refine .pure ⟨{ h with rm := ?_ }, ⟨?_, rfl, rfl, rfl, rfl, rfl, rfl, by simp [hm]⟩, hp⟩
      · rintro _ ⟨⟩ x hx
        rcases List.mem_append.1 hx with hx | hx
        · exact h.rm r hm hx
        · simp only [List.mem_cons, List.not_mem_nil, or_false] at hx
          exact hx ▸ hf
      · unfold QIterMem.objs
        simp only [hm, rids]

/-- The faults of the entries that the searches for time ranges decode. -/
def FilesFault (files : List FileMem) (f : Fault) : Prop := ∃ x ∈ files, DecodeFault x.acts f

theorem safe_timeFilters (o : Heap → Bool) {m : QueryMem} {B : List Nat} {it : QIterMem} (h : Blank m B it)
    (files : List FileMem) (hf : ∀ x ∈ files, x.block ∈ B) {R : List (Nat × Bytes)} (hR : it.objs ++ B ⊆ ids R)
    (hq : m.self ∈ ids R) :
    Safe (FilesFault files) (timeFiltersMem o it files) R fun r R' => Blank m B r.1 ∧ SameBlocks it r.1 ∧
      r.2 ⊆ B ∧ R'.Perm R := by
  induction files generalizing it R with
  | nil => exact Does.safe (.pure ⟨h, .refl _, nofun, List.Perm.refl _⟩)
  | cons f fs ih =>
    unfold timeFiltersMem
    refine Safe.bind ((safe_timeFilter o h f (hf f List.mem_cons_self) hR hq).weaken
      (fun _ hx => ⟨f, List.mem_cons_self, hx⟩) (fun _ _ h => h)) ?_
    rintro ⟨it1, keep⟩ R1 ⟨h1, e1, hp1⟩
    simp only at h1 e1 hp1 ⊢
    refine Safe.bind ((ih h1 (fun x hx => hf x (List.mem_cons_of_mem _ hx)) (R := R1) ?_ ?_).weaken
      (fun _ ⟨x, hx, hy⟩ => ⟨x, List.mem_cons_of_mem _ hx, hy⟩) (fun _ _ h => h)) ?_
    · rw [e1.objs]
      exact fun x hx => ids_perm hp1.symm (hR hx)
    · exact ids_perm hp1.symm hq
    rintro ⟨it2, kept⟩ R2 ⟨h2, e2, hk, hp2⟩
    refine Does.safe (.pure ⟨h2, e1.trans e2, ?_, hp2.trans hp1⟩)
    simp only at hk ⊢
    split
    · intro x hx
      rcases List.mem_cons.1 hx with rfl | hx
      · exact hf f List.mem_cons_self
      · exact hk hx
    · exact hk

/-- The query has a removal stage over a file set: aggregated, and with a bound that is strict about whole entries. -/
def Query.removes (q : Query) : Bool := q.aggregated && (q.bounds.firstAfter.isSome || q.bounds.lastBefore.isSome)

theorem does_mergers {m : QueryMem} {B : List Nat} {it : QIterMem} (h : Blank m B it) (h1 : it.removeStrict = none)
    (h2 : it.fillMerger = none) {R S : List (Nat × Bytes)} (hp : R.Perm (zs it.objs ++ S)) :
    Does (mergersMem it) R fun it' R' => Blank m B it' ∧ it'.self = it.self ∧ it'.fsFilter = it.fsFilter ∧
      it'.fsNoMerge = it.fsNoMerge ∧ (it'.removeStrict.isSome → m.q.removes = true) ∧ R'.Perm (zs it'.objs ++ S) := by
  unfold mergersMem
  split
  · next hc =>
    rw [Bool.and_eq_true] at hc
    refine Does.bind (Q := fun it' R' => Blank m B it' ∧ it'.self = it.self ∧ it'.fsFilter = it.fsFilter ∧
      it'.fsNoMerge = it.fsNoMerge ∧ (it'.removeStrict.isSome → m.q.removes = true) ∧ it'.fillMerger = none ∧
      R'.Perm (zs it'.objs ++ S)) ?_ ?_
    · split
      · next hs =>
        refine (does_removeInit R).bind ?_
        rintro r R1 ⟨hr, hrm⟩
        refine .pure ⟨{ h with rm := ?_ }, rfl, rfl, rfl, fun _ => ?_, h2, ?_⟩
        · rintro _ ⟨⟩ x hx
          rw [hrm] at hx
          cases hx
        · unfold Query.removes
          rw [← h.q, hc.1, hs]
          rfl
        · refine hr.trans ((hp.append_left _).trans ?_)
          unfold QIterMem.objs
          simp only [h1, zs_append, zs_cons, rids, zs_nil]
          blocks
      · exact .pure ⟨h, rfl, rfl, rfl, by rw [h1]; nofun, h2, hp⟩
    rintro it1 R1 ⟨k1, k2, k3, k4, k5, k6, hp1⟩
    refine (does_alloc _ _).bind ?_
    rintro mopt _ ⟨rfl, -⟩
    refine (does_alloc _ _).bind ?_
    rintro p _ ⟨rfl, -⟩
    refine .perm (R' := (mopt, []) :: (p, []) :: R1) (by blocks) ?_
    refine (does_free _ _ _).bind ?_
    rintro _ _ rfl
    refine .pure ⟨{ k1 with }, k2, k3, k4, k5, ?_⟩
    refine (hp1.cons _).trans ?_
    unfold QIterMem.objs
    simp only [k6, zs_append, zs_cons, zs_toList, blk]
    blocks
  · exact .pure ⟨h, rfl, rfl, rfl, by rw [h1]; nofun, hp⟩

/-- The outcome of opening an iterator over a file set. -/
def FilesetOk (m : QueryMem) (B : List Nat) (G : List (Nat × Bytes)) (a : Option DIterMem) (R' : List (Nat × Bytes)) :
    Prop :=
  (initKind m.q = .fail ∧ a = none ∧ R'.Perm G) ∨
  ∃ p d, initKind m.q = .ok p ∧ a = some d ∧ d.it.Good (m.self :: B) ∧ d.it.q = m.q ∧ d.it.query = m.self ∧
    (d.it.removeStrict.isSome → m.q.removes = true) ∧ d.it.indirect = p.indirect.isSome ∧ R'.Perm (zs d.all ++ G)

theorem safe_filesetCommon (o : Heap → Bool) {m : QueryMem} {B : List Nat} {it : QIterMem} (h : Blank m B it)
    {R G : List (Nat × Bytes)} (hp : R.Perm (zs it.objs ++ G)) (hB : B ⊆ ids G) (hq : m.self ∈ ids G)
    (hr : it.removeStrict.isSome → m.q.removes = true) (h1 : it.source.needs ⊆ it.objs ++ B)
    (h2 : it.index.needs ⊆ it.objs ++ B) (h3 : it.source.plain) (h4 : it.index.plain) :
    Safe (fun f => initKind m.q = .fault f) (iterCommonMem o it) R (FilesetOk m B G) := by
  have hs : ∀ {l : List Nat}, l ⊆ it.objs ++ B → l ⊆ it.objs ++ (m.self :: B) := by
    intro l hl x hx
    rcases List.mem_append.1 (hl hx) with h | h
    · exact List.mem_append_left _ h
    · exact List.mem_append_right _ (List.mem_cons_of_mem _ h)
  have hprep : Prep it filterSlots (m.self :: B) G it R :=
    { perm := by rw [h.second]; simpa [IterMem.ids] using hp
      source := hs h1
      index := hs h2
      second := by rw [h.second]; nofun
      first := h.first
      leaks := by rw [h.second]; rfl
      plain := fun _ => h3
      plainIndex := h4
      free := fun _ _ => by rw [h.filters]
      slots := fun _ h => h
      q := rfl, query := rfl, self := rfl, ljoin := rfl, merger := rfl, fill := rfl, remove := rfl
      live := by rw [h.query]; exact List.mem_cons_self
      fillLive := fun x hx => List.mem_cons_of_mem _ (h.fill hx)
      removeLive := fun r hr x hx => List.mem_cons_of_mem _ (h.rm r hr hx)
      ext := fun x hx => by
        rcases List.mem_cons.1 hx with rfl | hx
        · exact hq
        · exact hB hx }
  have hrun := runs_iterCommon hprep h.ljoin h.timeout h.timeoutIndex h.key h.key2 h.second h.indirect o
  rw [h.q] at hrun
  refine hrun.safe.weaken (fun _ h => h) ?_
  rintro a R' (⟨p, e, d, rfl, k1, k2, k3, k4, k5, k6⟩ | ⟨e, rfl, hp⟩)
  · exact .inr ⟨p, d, e, rfl, k1, k2.trans h.q, k3.trans h.query, fun hx => hr (k4 ▸ hx), k5, k6⟩
  · exact .inl ⟨e, rfl, hp⟩

private theorem base_needs {B O : List Nat} {f fs p : Nat} {kept : List Nat} (hf : f ∈ O) (hfs : fs ∈ B) (hp : p ∈ O)
    (hk : kept ⊆ B) :
    (SrcMem.base (f :: fs :: p :: kept)).needs ⊆ O ++ B := by
  intro x hx
  simp only [SrcMem.needs, List.mem_cons] at hx
  rcases hx with rfl | rfl | rfl | hx
  · exact List.mem_append_left _ hf
  · exact List.mem_append_right _ hfs
  · exact List.mem_append_left _ hp
  · exact List.mem_append_right _ (hk hx)

theorem safe_unmerged (o : Heap → Bool) {m : QueryMem} {fs fopt f : Nat} {files : List FileMem} {B kept : List Nat}
    {G R2 : List (Nat × Bytes)} {j : QIterMem} (hb' : Blank m B j) (hfs : fs ∈ B) (hf : ∀ x ∈ files, x.block ∈ B)
    (hB : B ⊆ ids G) (hq : m.self ∈ ids G) (hp4 : R2.Perm ((fopt, []) :: (zs j.objs ++ G)))
    (hrj : j.removeStrict.isSome → m.q.removes = true) (hij : j.index = .base (f :: fs :: j.self :: kept))
    (hfj : j.fsFilter = some f) (hnj : j.fsNoMerge = none) (hk : kept ⊆ B) :
    Safe (FilesFault files) (do
      touchAllMem [fs, fopt]
      let f ← mAlloc []
      let (it, kept) ← timeFiltersMem o j files
      pure { it with fsNoMerge := some f, source := .base (f :: fs :: it.self :: kept) }) R2
      fun it' R' => Blank m B it' ∧ (it'.removeStrict.isSome → m.q.removes = true) ∧
      R'.Perm ((fopt, []) :: (zs it'.objs ++ G)) ∧ it'.source.needs ⊆ it'.objs ++ B ∧ it'.index.needs ⊆ it'.objs ++ B ∧
      it'.source.plain ∧ it'.index.plain := by
  have hfo : [fs, fopt] ⊆ ids R2 := by
    intro x hx
    refine ids_perm hp4.symm ?_
    simp only [List.mem_cons, List.not_mem_nil, or_false] at hx
    rcases hx with rfl | rfl
    · simp [hB hfs]
    · simp
  refine Safe.bind (P := fun _ R' => R' = R2) (does_touchAll hfo).safe ?_
  intro _ R' e
  rw [e]
  refine Safe.bind (does_alloc _ _).safe ?_
  rintro g _ ⟨rfl, -⟩
  refine Safe.bind ((safe_timeFilters o hb' files hf (R := (g, []) :: R2) ?_ ?_)) ?_
  · intro x hx
    refine List.mem_cons_of_mem _ (ids_perm hp4.symm ?_)
    simp only [List.mem_append, ids_append, ids_zs, ids_cons, List.mem_cons] at hx ⊢
    rcases hx with h | h
    · exact .inr (.inl h)
    · exact .inr (.inr (hB h))
  · exact List.mem_cons_of_mem _ (ids_perm hp4.symm (by simp [hq]))
  rintro ⟨it2, kept2⟩ R3 ⟨h3, e3, hk2, hp5⟩
  simp only at h3 e3 hk2 ⊢
  refine Does.safe (.pure ⟨{ h3 with }, ?_, ?_, ?_, ?_, trivial, ?_⟩)
  · intro hx
    refine hrj ?_
    rw [← e3.remove]
    exact hx
  · refine (hp5.trans (hp4.cons _)).trans ?_
    rw [← e3.objs]
    have : it2.fsNoMerge = none := e3.fsNoMerge.trans hnj
    unfold QIterMem.objs
    simp only [this, zs_append, zs_cons, zs_toList, blk]
    blocks
  · exact base_needs (by simp [QIterMem.objs]) hfs (by simp [QIterMem.objs]) hk2
  · have : it2.index = .base (f :: fs :: it2.self :: kept) := by
      rw [e3.index, e3.self, hij]
    simp only
    rw [this]
    refine base_needs ?_ hfs (by simp [QIterMem.objs]) hk
    have : it2.fsFilter = some f := e3.fsFilter.trans hfj
    simp [QIterMem.objs, this]
  · simp only
    rw [e3.index, hij]
    trivial

theorem safe_queryIterFileset (o : Heap → Bool) (m : QueryMem) (fs : Nat) (files : List FileMem) (B : List Nat)
    (G : List (Nat × Bytes)) (hfs : fs ∈ B) (hf : ∀ x ∈ files, x.block ∈ B) (hB : B ⊆ ids G) (hq : m.self ∈ ids G) :
    Safe (fun f => FilesFault files f ∨ initKind m.q = .fault f) (queryIterFilesetMem o m fs files) G
      (FilesetOk m B G) := by
  unfold queryIterFilesetMem
  refine Safe.bind (does_alloc _ _).safe ?_
  rintro p _ ⟨rfl, -⟩
  refine Safe.bind (P := fun _ R' => R' = (p, []) :: G) (does_touch (List.mem_cons_of_mem _ hq)).safe ?_
  intro _ R' e
  rw [e]
  simp only
  refine Safe.bind (does_alloc _ _).safe ?_
  rintro fopt _ ⟨rfl, -⟩
  have hb : Blank m B { self := p, query := m.self, q := m.q, source := .base [], index := .base [] } :=
    ⟨rfl, rfl, rfl, rfl, rfl, rfl, rfl, rfl, rfl, rfl, rfl, nofun, nofun⟩
  refine Safe.bind (does_mergers hb rfl rfl (S := (fopt, []) :: G) (by
    simp only [QIterMem.objs, sids, rids, vids, Option.toList, List.append_nil, zs_cons, zs_nil]; blocks)).safe ?_
  rintro it R1 ⟨h1, -, ef, en, hr, hp1⟩
  simp only at ef en
  have hfo : [fs, fopt] ⊆ ids R1 := by
    intro x hx
    refine ids_perm hp1.symm ?_
    simp only [List.mem_cons, List.not_mem_nil, or_false] at hx
    rcases hx with rfl | rfl
    · simp [hB hfs]
    · simp
  refine Safe.bind (P := fun _ R' => R' = R1) (does_touchAll hfo).safe ?_
  intro _ R' e
  rw [e]
  refine Safe.bind (does_alloc _ _).safe ?_
  rintro f _ ⟨rfl, -⟩
  have hin : ∀ {S : List (Nat × Bytes)} {j : QIterMem}, S.Perm (zs j.objs ++ ((f, []) :: (fopt, []) :: G)) →
      j.objs ++ B ⊆ ids S := by
    intro S j hS x hx
    refine ids_perm hS.symm ?_
    simp only [List.mem_append, ids_append, ids_zs, ids_cons, List.mem_cons] at hx ⊢
    rcases hx with h | h
    · exact .inl h
    · exact .inr (.inr (.inr (hB h)))
  have hp2 : ((f, []) :: R1).Perm (zs it.objs ++ ((f, []) :: (fopt, []) :: G)) := (hp1.cons _).trans (by blocks)
  refine Safe.bind ((safe_timeFilters o h1 files hf (hin hp2) (ids_perm hp2.symm (by simp [hq]))).weaken
    (fun _ h => .inl h) (fun _ _ h => h)) ?_
  rintro ⟨it1, kept⟩ R2 ⟨h2, e2, hk, hp3⟩
  simp only at h2 e2 hk ⊢
  have hr2 : it1.removeStrict.isSome → m.q.removes = true := fun h => hr (e2.remove ▸ h)
  have hp4 : R2.Perm ((fopt, []) :: (zs ({ it1 with
      fsFilter := some f, source := .base (f :: fs :: it1.self :: kept), index := .base (f :: fs :: it1.self :: kept) }
      : QIterMem).objs ++ G)) := by
    refine (hp3.trans hp2).trans ?_
    rw [← e2.objs]
    unfold QIterMem.objs
    simp only [e2.fsFilter, ef, zs_append, zs_cons, zs_toList, blk]
    blocks
  have hb' : Blank m B { it1 with
    fsFilter := some f, source := .base (f :: fs :: it1.self :: kept), index := .base (f :: fs :: it1.self :: kept) } := { h2 with }
  revert hp4 hb'
  generalize hj : ({ it1 with
    fsFilter := some f, source := .base (f :: fs :: it1.self :: kept), index := .base (f :: fs :: it1.self :: kept) }
    : QIterMem) = j
  intro hp4 hb'
  have hrj : j.removeStrict.isSome → m.q.removes = true := by rw [← hj]; exact hr2
  have hsj : j.source = .base (f :: fs :: j.self :: kept) := by rw [← hj]
  have hij : j.index = .base (f :: fs :: j.self :: kept) := by rw [← hj]
  have hfj : j.fsFilter = some f := by rw [← hj]
  have hnj : j.fsNoMerge = none := by rw [← hj]; exact e2.fsNoMerge.trans en
  clear hj
  by_cases ha : it1.q.aggregated = true
  · rw [if_pos ha]
    refine Safe.bind (P := fun it' R' => it' = j ∧ R' = R2) (Does.pure ⟨rfl, rfl⟩).safe ?_
    rintro _ _ ⟨rfl, rfl⟩
    refine Safe.perm hp4 ?_
    refine Safe.bind (does_free _ _ _).safe ?_
    intro _ R' e
    rw [e]
    refine (safe_filesetCommon o hb' (List.Perm.refl _) hB hq hrj ?_ ?_ (by rw [hsj]; trivial) (by rw [hij]; trivial)).weaken
      (fun _ h => .inr h) (fun _ _ h => h)
    · rw [hsj]; exact base_needs (by simp [QIterMem.objs, hfj]) hfs (by simp [QIterMem.objs]) hk
    · rw [hij]; exact base_needs (by simp [QIterMem.objs, hfj]) hfs (by simp [QIterMem.objs]) hk
  · rw [if_neg ha]
    refine Safe.bind (P := fun it' R' => Blank m B it' ∧ (it'.removeStrict.isSome → m.q.removes = true) ∧
      R'.Perm ((fopt, []) :: (zs it'.objs ++ G)) ∧ it'.source.needs ⊆ it'.objs ++ B ∧ it'.index.needs ⊆ it'.objs ++ B ∧
      it'.source.plain ∧ it'.index.plain) ?_ ?_
    · exact (safe_unmerged o hb' hfs hf hB hq hp4 hrj hij hfj hnj hk).weaken (fun _ h => .inl h) (fun _ _ h => h)
    · rintro it' R' ⟨k1, k2, k3, k4, k5, k6, k7⟩
      refine Safe.perm k3 ?_
      refine Safe.bind (does_free _ _ _).safe ?_
      intro _ R' e
      rw [e]
      exact (safe_filesetCommon o k1 (List.Perm.refl _) hB hq k2 k4 k5 k6 k7).weaken (fun _ h => .inr h) (fun _ _ h => h)

end Verif
