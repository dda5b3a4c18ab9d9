import Verif.Lemmas.QIterMem
import Verif.Lemmas.Tame

/-! The objects of a program own disjoint blocks, and nothing else is left. -/

namespace Verif
open Spec

/-! ## Lists of pointers -/

theorem flatMap_pull {α β : Type} (f : α → List β) {l : List α} {i : Nat} {a : α} (h : l[i]? = some a) :
    (l.flatMap f).Perm (f a ++ (l.eraseIdx i).flatMap f) := by
  induction l generalizing i with
  | nil => simp at h
  | cons b l ih =>
    cases i with
    | zero =>
      rw [List.getElem?_cons_zero, Option.some.injEq] at h
      subst h
      exact List.Perm.refl _
    | succ i =>
      rw [List.getElem?_cons_succ] at h
      rw [List.eraseIdx_cons_succ, List.flatMap_cons, List.flatMap_cons]
      refine ((ih h).append_left _).trans ?_
      rw [← List.append_assoc, ← List.append_assoc]
      exact List.perm_append_comm.append_right _

theorem flatMap_put {α β : Type} (f : α → List β) {l : List α} {i : Nat} {a : α} (h : l[i]? = some a) (b : α) :
    ((l.set i b).flatMap f).Perm (f b ++ (l.eraseIdx i).flatMap f) := by
  have hl : i < l.length := (List.getElem?_eq_some_iff.1 h).1
  have := flatMap_pull f (l := l.set i b) (i := i) (a := b) (by rw [List.getElem?_set]; simp [hl])
  rwa [List.eraseIdx_set_eq] at this

theorem pointer_some {α : Type} {l : List (Option α)} {i : Nat} {a : α} (h : pointer l i = some a) :
    l[i]? = some (some a) := by
  unfold pointer at h
  cases hl : l[i]? with
  | none => rw [hl] at h; cases h
  | some x => rw [hl] at h; simp only [Option.join_some] at h; rw [h]

theorem pointer_append {α : Type} {l : List (Option α)} {i : Nat} {a : α} (x : Option α) (h : pointer l i = some a) :
    pointer (l ++ [x]) i = some a := by
  have h' := pointer_some h
  unfold pointer
  rw [List.getElem?_append_left (List.getElem?_eq_some_iff.1 h').1, h']
  rfl

theorem pointer_set_ne {α : Type} (l : List (Option α)) {i j : Nat} (x : Option α) (h : i ≠ j) :
    pointer (l.set i x) j = pointer l j := by
  unfold pointer
  rw [List.getElem?_set_ne h]

theorem pointer_set_eq {α : Type} {l : List (Option α)} {i : Nat} {a : α} (h : pointer l i = some a) (x : Option α) :
    pointer (l.set i x) i = x := by
  have hl := (List.getElem?_eq_some_iff.1 (pointer_some h)).1
  unfold pointer
  rw [List.getElem?_set]
  simp [hl]

theorem set_null {α : Type} {l : List (Option α)} {i : Nat} (h : pointer l i = none) : l.set i none = l := by
  apply List.ext_getElem?
  intro j
  rw [List.getElem?_set]
  split
  · next e =>
    subst e
    unfold pointer at h
    split
    · next hl =>
      rw [List.getElem?_eq_getElem hl] at h ⊢
      simp only [Option.join_some] at h
      rw [h]
    · next hl => rw [List.getElem?_eq_none (by omega)]
  · rfl

/-! ## What objects own -/

/-- The blocks of a query with its error text. -/
def qblk : Option (QueryMem × Bytes) → List (Nat × Bytes)
  | none => []
  | some g => g.1.own g.2

/-- The blocks of a reader. -/
def rblk : Option ReaderMem → List (Nat × Bytes)
  | none => []
  | some r => (r.self, []) :: blk r.fs []

/-- The blocks of an iterator. -/
def AnyIter.all : AnyIter → List Nat
  | .query d => d.all
  | .reader o p it => o :: p :: it.ids

/-- The blocks of an iterator, if there is one. -/
def tblk (t : Tracked) : List (Nat × Bytes) :=
  match t.ptr with
  | none => []
  | some it => zs it.all

/-- The block of a query. -/
def qself (s : Session) (q : Nat) : Option Nat := (pointer s.queries q).map QueryMem.self

/-- The file set of a reader. -/
def rfs (s : Session) (r : Nat) : Option Nat := (pointer s.readers r).bind ReaderMem.fs

/-- What an iterator uses is there. -/
def IterFine (ext : List Nat) (s : Session) (t : Tracked) : Prop :=
  match t.ptr with
  | none => True
  | some (.query d) => ∃ q k X, t.query = some q ∧ qself s q = some k ∧ d.it.Good (k :: X) ∧
      ∀ x ∈ X, x ∈ ext ∨ rfs s t.reader = some x
  | some (.reader _ _ it) => it.needs ⊆ ext ∧ it.leaks = []

/-- The iterator has no removal stage. -/
def NoRemoval (t : Tracked) : Prop := ∀ d, t.ptr = some (.query d) → d.it.removeStrict = none

/-- The pointers of a program and the blocks: nothing else is left over, if `C`. -/
structure Inv (ext : List Nat) (base : List (Nat × Bytes)) (C : Prop) (s : Session) (R : List (Nat × Bytes)) : Prop where
  kept : ext ⊆ ids base
  own : ∃ (gs : List (Option (QueryMem × Bytes))) (L : List Nat), gs.map (Option.map Prod.fst) = s.queries ∧ (C → L = []) ∧
    R.Perm (gs.flatMap qblk ++ (s.readers.flatMap rblk ++ (s.iters.flatMap tblk ++ (s.entries.flatMap eblk ++
      (zs L ++ base)))))
  readers : ∀ r, some r ∈ s.readers → (∀ src, r.source = some src → src ⊆ ext) ∧ (r.fs = none → r.source.isSome)
  iters : ∀ t ∈ s.iters, IterFine ext s t ∧ (C → NoRemoval t)
  entries : ∀ m, some m ∈ s.entries → m.rdatas.length = m.e.rdatas.length

theorem IterFine.mono {ext : List Nat} {s s' : Session} {t : Tracked} (h : IterFine ext s t)
    (hq : ∀ q k, t.ptr.isSome → t.query = some q → qself s q = some k → qself s' q = some k)
    (hr : ∀ x, t.ptr.isSome → rfs s t.reader = some x → rfs s' t.reader = some x) : IterFine ext s' t := by
  unfold IterFine at h ⊢
  cases hp : t.ptr with
  | none => trivial
  | some it =>
    rw [hp] at h hq hr
    cases it with
    | reader o p it => exact h
    | query d =>
      obtain ⟨q, k, X, h1, h2, h3, h4⟩ := h
      refine ⟨q, k, X, h1, hq q k rfl h1 h2, h3, fun x hx => ?_⟩
      exact (h4 x hx).imp id (hr x rfl)

theorem mem_of_get {α : Type} {l : List α} {i : Nat} {a : α} (h : l[i]? = some a) : a ∈ l := by
  obtain ⟨hi, rfl⟩ := List.getElem?_eq_some_iff.1 h
  exact List.getElem_mem hi

theorem mem_set_cases {α : Type} {l : List α} {i : Nat} {a x : α} (h : x ∈ l.set i a) : x = a ∨ x ∈ l := by
  obtain ⟨j, hj⟩ := List.mem_iff_getElem?.1 h
  rw [List.getElem?_set] at hj
  split at hj
  · split at hj
    · exact .inl (Option.some.inj hj).symm
    · cases hj
  · exact .inr (mem_of_get hj)

/-- The ghost list has the query, with its error text. -/
theorem ghost_get {gs : List (Option (QueryMem × Bytes))} {qs : List (Option QueryMem)} {i : Nat} {m : QueryMem}
    (hg : gs.map (Option.map Prod.fst) = qs) (h : pointer qs i = some m) : ∃ e, gs[i]? = some (some (m, e)) := by
  have h' := pointer_some h
  rw [← hg, List.getElem?_map] at h'
  cases hl : gs[i]? with
  | none => rw [hl] at h'; cases h'
  | some x =>
    rw [hl] at h'
    cases x with
    | none => cases h'
    | some g =>
      obtain ⟨m', e⟩ := g
      simp only [Option.map_some, Option.some.injEq] at h'
      exact ⟨e, by rw [h']⟩

theorem self_mem {gs : List (Option (QueryMem × Bytes))} {s : Session} {q k : Nat}
    (hg : gs.map (Option.map Prod.fst) = s.queries) (h : qself s q = some k) : k ∈ ids (gs.flatMap qblk) := by
  unfold qself at h
  cases hp : pointer s.queries q with
  | none => rw [hp] at h; cases h
  | some m =>
    rw [hp] at h
    cases h
    obtain ⟨e, he⟩ := ghost_get hg hp
    refine ids_perm (flatMap_pull qblk he).symm ?_
    simp [qblk, QueryMem.own]

theorem fs_mem {s : Session} {r x : Nat} (h : rfs s r = some x) : x ∈ ids (s.readers.flatMap rblk) := by
  unfold rfs at h
  cases hp : pointer s.readers r with
  | none => rw [hp] at h; cases h
  | some m =>
    rw [hp] at h
    simp only [Option.bind_some] at h
    refine ids_perm (flatMap_pull rblk (pointer_some hp)).symm ?_
    simp [rblk, h, blk]

/-! ## Destructors -/

section ops
variable {ext : List Nat} {base : List (Nat × Bytes)} {C : Prop} {s : Session} {R : List (Nat × Bytes)}
  {A : Arith} {L : Libs}

theorem does_destroyQueryOp (h : Inv ext base C s R) (q : Nat) (hq : queryInUse s q = false) :
    Does (opMem A L s (.destroyQuery q)) R fun s' R' => s' = { s with queries := s.queries.set q none } ∧
      Inv ext base C s' R' := by
  unfold opMem
  dsimp only
  obtain ⟨gs, K, hg, hK, hp⟩ := h.own
  have hit : ∀ t ∈ s.iters, IterFine ext { s with queries := s.queries.set q none } t ∧ (C → NoRemoval t) := by
    intro t ht
    refine ⟨(h.iters t ht).1.mono ?_ (fun _ _ h => h), (h.iters t ht).2⟩
    intro q' k hs hq' hk
    have hne : q ≠ q' := by
      rintro rfl
      unfold queryInUse at hq
      rw [List.any_eq_false] at hq
      exact hq t ht (by rw [hs, hq']; simp)
    unfold qself at hk ⊢
    simp only
    rwa [pointer_set_ne _ _ hne]
  cases hm : pointer s.queries q with
  | none =>
    refine Does.bind (Q := fun a R' => a = none ∧ R' = R) (.pure ⟨rfl, rfl⟩) ?_
    rintro _ _ ⟨rfl, rfl⟩
    refine .pure ⟨rfl, ⟨h.kept, ⟨gs, K, ?_, hK, hp⟩, h.readers, hit, h.entries⟩⟩
    rw [hg]
    exact (set_null hm).symm
  | some m =>
    obtain ⟨e, he⟩ := ghost_get hg hm
    refine .perm (hp.trans ((flatMap_pull qblk he).append_right _)) ?_
    simp only [qblk, List.append_assoc]
    refine (does_queryDestroy m e _).bind ?_
    rintro _ R' ⟨rfl, hR⟩
    rw [hR]
    refine .pure ⟨rfl, ⟨h.kept, ⟨gs.set q none, K, ?_, hK, ?_⟩, h.readers, hit, h.entries⟩⟩
    · rw [List.map_set, hg]; rfl
    · exact (flatMap_put qblk he none).symm.append_right _

theorem does_destroyReaderOp (h : Inv ext base C s R) (r : Nat) (hr : setfileInUse s r = false) :
    Does (opMem A L s (.destroyReader r)) R fun s' R' => s' = { s with readers := s.readers.set r none } ∧
      Inv ext base C s' R' := by
  unfold opMem
  dsimp only
  obtain ⟨gs, K, hg, hK, hp⟩ := h.own
  have hrd : ∀ m, some m ∈ s.readers.set r none →
      (∀ src, m.source = some src → src ⊆ ext) ∧ (m.fs = none → m.source.isSome) := by
    intro m hm
    rcases mem_set_cases hm with h' | h'
    · cases h'
    · exact h.readers m h'
  have hit : ∀ t ∈ s.iters, IterFine ext { s with readers := s.readers.set r none } t ∧ (C → NoRemoval t) := by
    intro t ht
    refine ⟨(h.iters t ht).1.mono (fun _ _ _ _ h => h) ?_, (h.iters t ht).2⟩
    intro x hs hx
    have hne : r ≠ t.reader := by
      rintro rfl
      unfold setfileInUse at hr
      unfold rfs at hx
      cases hm : pointer s.readers t.reader with
      | none => rw [hm] at hx; cases hx
      | some m =>
        rw [hm] at hx hr
        simp only [Option.bind_some] at hx
        simp only [hx, Option.isSome_some, Bool.true_and, List.any_eq_false] at hr
        exact hr t ht (by rw [hs]; simp)
    unfold rfs at hx ⊢
    simp only
    rwa [pointer_set_ne _ _ hne]
  cases hm : pointer s.readers r with
  | none =>
    refine Does.bind (Q := fun a R' => a = none ∧ R' = R) (.pure ⟨rfl, rfl⟩) ?_
    rintro _ _ ⟨rfl, rfl⟩
    refine .pure ⟨rfl, ⟨h.kept, ⟨gs, K, hg, hK, ?_⟩, hrd, hit, h.entries⟩⟩
    simp only [set_null hm]
    exact hp
  | some m =>
    refine .perm (hp.trans (((flatMap_pull rblk (pointer_some hm)).append_right _).append_left _)) ?_
    refine Does.bind (Q := fun a R' => a = none ∧ R'.Perm (gs.flatMap qblk ++ ((s.readers.eraseIdx r).flatMap rblk ++
      (s.iters.flatMap tblk ++ (s.entries.flatMap eblk ++ (zs K ++ base)))))) ?_ ?_
    · unfold readerDestroyMem rblk
      dsimp only
      refine (does_touch (by simp)).bind ?_
      intro _ R' e
      rw [e]
      refine .perm (R' := blk m.fs [] ++ ((m.self, []) :: (gs.flatMap qblk ++ ((s.readers.eraseIdx r).flatMap rblk ++
        (s.iters.flatMap tblk ++ (s.entries.flatMap eblk ++ (zs K ++ base))))))) (by unfold rblk; blocks) ?_
      refine (does_free_blk _ _ _).bind ?_
      intro _ R' e
      rw [e]
      refine (does_free _ _ _).bind ?_
      intro _ R' e
      rw [e]
      exact .pure ⟨rfl, List.Perm.refl _⟩
    · rintro _ R' ⟨rfl, hR⟩
      refine .pure ⟨rfl, ⟨h.kept, ⟨gs, K, hg, hK, ?_⟩, hrd, hit, h.entries⟩⟩
      exact hR.trans (((flatMap_put rblk (pointer_some hm) none).symm.append_right _).append_left _)

theorem does_destroyEntryOp (h : Inv ext base C s R) (i : Nat) :
    Does (opMem A L s (.destroyEntry i)) R fun s' R' => s' = { s with entries := s.entries.set i none } ∧
      Inv ext base C s' R' := by
  unfold opMem
  dsimp only
  obtain ⟨gs, K, hg, hK, hp⟩ := h.own
  have hen : ∀ m, some m ∈ s.entries.set i none → m.rdatas.length = m.e.rdatas.length := by
    intro m hm
    rcases mem_set_cases hm with h' | h'
    · cases h'
    · exact h.entries m h'
  cases hm : pointer s.entries i with
  | none =>
    refine Does.bind (Q := fun a R' => a = none ∧ R' = R) (.pure ⟨rfl, rfl⟩) ?_
    rintro _ _ ⟨rfl, rfl⟩
    refine .pure ⟨rfl, ⟨h.kept, ⟨gs, K, hg, hK, ?_⟩, h.readers, h.iters, hen⟩⟩
    simp only [set_null hm]
    exact hp
  | some m =>
    have hl := h.entries m (mem_of_get (pointer_some hm))
    refine (does_entryDestroy m (gs.flatMap qblk ++ (s.readers.flatMap rblk ++ (s.iters.flatMap tblk ++
      ((s.entries.eraseIdx i).flatMap eblk ++ (zs K ++ base))))) R ⟨hl, hp.trans ?_⟩).bind ?_
    · have := flatMap_pull eblk (pointer_some hm)
      refine ((((this.append_right _).append_left _).append_left _).append_left _).trans ?_
      simp only [eblk]
      blocks
    · rintro _ R' ⟨rfl, hR⟩
      rw [hR]
      refine .pure ⟨rfl, ⟨h.kept, ⟨gs, K, hg, hK, ?_⟩, h.readers, h.iters, hen⟩⟩
      exact ((((flatMap_put eblk (pointer_some hm) none).symm.append_right _).append_left _).append_left _).append_left _

/-- What the other objects of the program own. -/
def besides (gs : List (Option (QueryMem × Bytes))) (s : Session) (i : Nat) (K : List Nat) (base : List (Nat × Bytes)) :
    List (Nat × Bytes) :=
  gs.flatMap qblk ++ (s.readers.flatMap rblk ++ ((s.iters.eraseIdx i).flatMap tblk ++ (s.entries.flatMap eblk ++
    (zs K ++ base))))

theorem uses_live (h : Inv ext base C s R) {gs : List (Option (QueryMem × Bytes))} {K : List Nat} {i : Nat}
    (hg : gs.map (Option.map Prod.fst) = s.queries) {q k : Nat} {X : List Nat} {r : Nat} (hk : qself s q = some k)
    (hX : ∀ x ∈ X, x ∈ ext ∨ rfs s r = some x) : k :: X ⊆ ids (besides gs s i K base) := by
  intro x hx
  unfold besides
  simp only [ids_append, List.mem_append]
  rcases List.mem_cons.1 hx with rfl | hx
  · exact .inl (self_mem hg hk)
  · rcases hX x hx with hx | hx
    · exact .inr (.inr (.inr (.inr (.inr (h.kept hx)))))
    · exact .inr (.inl (fs_mem hx))

theorem besides_pull {gs : List (Option (QueryMem × Bytes))} {K : List Nat} {i : Nat} {t : Tracked}
    (ht : s.iters[i]? = some t) :
    (gs.flatMap qblk ++ (s.readers.flatMap rblk ++ (s.iters.flatMap tblk ++ (s.entries.flatMap eblk ++
      (zs K ++ base))))).Perm (tblk t ++ besides gs s i K base) := by
  refine ((((flatMap_pull tblk ht).append_right _).append_left _).append_left _).trans ?_
  unfold besides
  blocks

theorem besides_put {gs : List (Option (QueryMem × Bytes))} {K L' : List Nat} {i : Nat} {t t' : Tracked}
    (ht : s.iters[i]? = some t) (es : List (Option EntryMem)) :
    (es.flatMap eblk ++ (zs L' ++ (tblk t' ++ besides gs s i K base))).Perm
      (gs.flatMap qblk ++ (s.readers.flatMap rblk ++ ((s.iters.set i t').flatMap tblk ++ ((s.entries ++ es).flatMap eblk ++
      (zs (L' ++ K) ++ base))))) := by
  refine .trans ?_ ((((flatMap_put tblk ht t').symm.append_right _).append_left _).append_left _)
  unfold besides
  rw [List.flatMap_append, zs_append]
  blocks

theorem iters_set (h : Inv ext base C s R) {i : Nat} {t' : Tracked} {s' : Session} (hq : s'.queries = s.queries)
    (hr : s'.readers = s.readers) (hf : IterFine ext s t' ∧ (C → NoRemoval t')) :
    ∀ t ∈ s.iters.set i t', IterFine ext s' t ∧ (C → NoRemoval t) := by
  have hm : ∀ t, IterFine ext s t → IterFine ext s' t := fun t ht =>
    ht.mono (fun _ _ _ _ h => by unfold qself at h ⊢; rwa [hq]) (fun _ _ h => by unfold rfs at h ⊢; rwa [hr])
  intro t ht
  rcases mem_set_cases ht with rfl | ht
  · exact ⟨hm _ hf.1, hf.2⟩
  · exact ⟨hm _ (h.iters t ht).1, (h.iters t ht).2⟩

theorem fine_null (t : Tracked) : IterFine ext s { t with ptr := none } ∧ (C → NoRemoval { t with ptr := none }) :=
  ⟨trivial, fun _ d hd => by cases hd⟩

/-- The program after the destruction of an iterator. -/
def nullIter (s : Session) (i : Nat) : Session :=
  match s.iters[i]? with
  | none => s
  | some t => { s with iters := s.iters.set i { t with ptr := none } }

theorem does_destroyIterOp (h : Inv ext base C s R) (i : Nat) :
    Does (opMem A L s (.destroyIter i)) R fun s' R' => s' = nullIter s i ∧ Inv ext base C s' R' := by
  unfold opMem nullIter
  dsimp only
  cases ht : s.iters[i]? with
  | none => exact .pure ⟨rfl, h⟩
  | some t =>
    dsimp only
    obtain ⟨gs, K, hg, hK, hp⟩ := h.own
    have hf := h.iters t (mem_of_get ht)
    have hp' := hp.trans (besides_pull ht)
    refine Does.bind (Q := fun a R' => a = none ∧ ∃ L', (C → L' = []) ∧ R'.Perm (zs L' ++ besides gs s i K base)) ?_ ?_
    · unfold IterFine NoRemoval at hf
      unfold tblk at hp'
      cases hx : t.ptr with
      | none =>
        rw [hx] at hp'
        exact .pure ⟨rfl, [], fun _ => rfl, hp'⟩
      | some it =>
        rw [hx] at hp' hf
        cases it with
        | query d =>
          obtain ⟨⟨q, k, X, -, hk, hgood, hX⟩, hn⟩ := hf
          refine (does_iterDestroy (At.of_open hgood (uses_live h hg hk hX) hp')).bind ?_
          rintro _ R' ⟨-, L', hR, hL⟩
          exact .pure ⟨rfl, L', fun c => hL (hn c d rfl), hR⟩
        | reader o p it =>
          obtain ⟨⟨hne, hle⟩, -⟩ := hf
          simp only [AnyIter.all, zs_cons] at hp'
          unfold anyDestroyMem
          refine .perm (hp'.trans (show List.Perm _ (zs it.ids ++ ((p, []) :: (o, []) :: besides gs s i K base)) by
            blocks)) ?_
          refine (does_touchAll (fun x hx => ?_)).bind ?_
          · simp only [List.mem_cons, List.not_mem_nil, or_false] at hx
            rcases hx with rfl | rfl <;> simp
          intro _ R' e
          rw [e]
          refine (does_destroyIter it _ (fun x hx => ?_)).bind ?_
          · refine List.mem_cons_of_mem _ (List.mem_cons_of_mem _ ?_)
            unfold besides
            simp only [List.map_append, List.mem_append]
            exact .inr (.inr (.inr (.inr (.inr (h.kept (hne hx))))))
          intro _ R' e
          rw [hle] at e
          refine .perm e ?_
          refine (does_free _ _ _).bind ?_
          intro _ R' e
          rw [e]
          refine (does_free _ _ _).bind ?_
          intro _ R' e
          rw [e]
          exact .pure ⟨rfl, [], fun _ => rfl, List.Perm.refl _⟩
    · rintro _ R' ⟨rfl, L', hL, hR⟩
      refine .pure ⟨rfl, ⟨h.kept, ⟨gs, L' ++ K, hg, fun c => by rw [hL c, hK c]; rfl, ?_⟩, h.readers, ?_, h.entries⟩⟩
      · have := besides_put (base := base) (gs := gs) (K := K) (L' := L') (t' := { t with ptr := none }) ht []
        simp only [List.append_nil] at this
        exact hR.trans (.trans (by unfold tblk; exact List.Perm.refl _) this)
      · exact iters_set (t' := { t with ptr := none }) h rfl rfl (fine_null t)

/-! ## Other calls -/

/-- A fault other than a wrong use of the heap. -/
def Gentle (f : Fault) : Prop := f ≠ .badFree ∧ f ≠ .useAfterFree

theorem Tame.gentle {α : Type} {x : Out α} (hx : Tame x) {f : Fault} (h : x = .fault f) : Gentle f := by
  subst h
  exact ⟨fun e => hx.1 (by rw [e]), fun e => hx.2 (by rw [e])⟩

theorem gentle_null : Gentle .nullDeref := ⟨nofun, nofun⟩

theorem safe_fault {α : Type} {f : Fault} (hf : Gentle f) {R : List (Nat × Bytes)} {Q : α → List (Nat × Bytes) → Prop} :
    Safe Gentle (mPure (.fault f) : Mem α) R Q := fun _ _ => .inr ⟨f, rfl, hf⟩

theorem safe_readerSteps (o : Heap → Bool) (p : Nat) (it : IterMem) (kvs : List KV) (G R : List (Nat × Bytes))
    (hn : it.needs ⊆ ids G) (hs : p ∈ ids G) (hp : R.Perm (zs it.ids ++ G)) :
    Safe Gentle (readerStepsMem o p it kvs) R fun r R' => R'.Perm (eblk r.2 ++ (zs r.1.ids ++ G)) ∧
      r.1.needs = it.needs ∧ r.1.leaks = it.leaks ∧ ∀ m, r.2 = some m → m.rdatas.length = m.e.rdatas.length := by
  induction kvs generalizing it R with
  | nil =>
    unfold readerStepsMem
    refine Does.safe ?_
    refine .perm hp ?_
    refine (does_touch (by rw [List.map_append]; exact List.mem_append_right _ hs)).bind ?_
    intro _ R' e
    rw [e]
    refine (does_act o it .self G hn).bind ?_
    rintro it' R' ⟨h1, h2, h3⟩
    exact .pure ⟨h1, h2, h3, nofun⟩
  | cons kv kvs ih =>
    unfold readerStepsMem
    refine Safe.bind (P := fun _ R' => R' = zs it.ids ++ G) (Does.safe (.perm hp
      (does_touch (by rw [List.map_append]; exact List.mem_append_right _ hs)))) ?_
    intro _ R' e
    rw [e]
    refine Safe.bind (does_act o it .self G hn).safe ?_
    rintro it' R' ⟨h1, h2, h3⟩
    split
    · exact Does.safe (.pure ⟨h1, h2, h3, nofun⟩)
    · refine Safe.bind (P := fun a R2 => (∃ m, a = some m ∧ m.At R' R2) ∨ (a = none ∧ R2 = R')) ?_ ?_
      · have hr := runs_entryDecode kv.1 kv.2 R'
        intro h H
        cases hd : entryDecode kv.1 kv.2 with
        | ok e =>
          obtain ⟨a, h', R2, e1, H1, m, rfl, -, hm⟩ := hr.ok e hd h H
          exact .inl ⟨_, h', R2, e1, H1, .inl ⟨m, rfl, hm⟩⟩
        | fail =>
          obtain ⟨a, h', R2, e1, H1, rfl, rfl⟩ := hr.fail hd h H
          exact .inl ⟨_, h', _, e1, H1, .inr ⟨rfl, rfl⟩⟩
        | fault f => exact .inr ⟨f, hr.fault f hd h H, (Tame.entryDecode _ _).gentle hd⟩
      · rintro a R2 (⟨m, rfl, hm⟩ | ⟨rfl, rfl⟩)
        · refine Does.safe (.pure ⟨?_, h2, h3, ?_⟩)
          · exact hm.2.trans (h1.append_left _)
          · intro m' e'
            cases e'
            exact hm.1
        · refine (ih it' R2 (h2 ▸ hn) h1).weaken (fun _ h => h) ?_
          rintro r R3 ⟨k1, k2, k3, k4⟩
          exact ⟨k1, k2.trans h2, k3.trans h3, k4⟩

theorem safe_nextOp (h : Inv ext base C s R) (i : Nat) (o : Heap → Bool) (c : Course) :
    Safe Gentle (opMem A L s (.next i o c)) R fun s' R' => Inv ext base C s' R' := by
  unfold opMem
  dsimp only
  cases ht : s.iters[i]? with
  | none => exact Does.safe (.pure h)
  | some t =>
    dsimp only
    obtain ⟨gs, K, hg, hK, hp⟩ := h.own
    have hf := h.iters t (mem_of_get ht)
    have hp' := hp.trans (besides_pull ht)
    refine Safe.bind (P := fun a R' => ∃ L', (C → L' = []) ∧
      IterFine ext s { t with ptr := a.1 } ∧ (C → NoRemoval { t with ptr := a.1 }) ∧
      (∀ m, a.2 = some m → m.rdatas.length = m.e.rdatas.length) ∧
      R'.Perm ([a.2].flatMap eblk ++ (zs L' ++ (tblk { t with ptr := a.1 } ++ besides gs s i K base)))) ?_ ?_
    · unfold IterFine NoRemoval at hf
      unfold tblk at hp'
      cases hx : t.ptr with
      | none =>
        rw [hx] at hp'
        exact Does.safe (.pure ⟨[], fun _ => rfl, (fine_null (C := C) t).1, (fine_null (s := s) (ext := ext) t).2, nofun, hp'⟩)
      | some it =>
        rw [hx] at hp' hf
        cases it with
        | query d =>
          obtain ⟨⟨q, k, X, hq, hk, hgood, hX⟩, hn⟩ := hf
          unfold anyNextMem
          refine Safe.bind ((safe_iterNext (At.of_open hgood (uses_live h hg hk hX) hp') o c.steps).weaken
            (fun f hf => ?_) (fun _ _ h => h)) ?_
          · obtain ⟨k', v, -, hf⟩ := hf
            exact (Tame.entryDecode _ _).gentle hf
          rintro ⟨d', e⟩ R' ⟨L', R2, hat, hR, hh⟩
          simp only at hat hR hh
          refine Does.safe (.pure ⟨L', fun c => hat.it.lost (hat.it.remove.trans (hn c d rfl)), ?_, ?_, ?_, ?_⟩)
          · exact ⟨q, k, X, hq, hk, hat.it.good, hX⟩
          · intro c d2 hd2
            cases hd2
            exact hat.it.remove.trans (hn c d rfl)
          · intro m hm
            exact (hh m hm).1
          · refine hR.trans ?_
            simp only [List.flatMap_cons, List.flatMap_nil, List.append_nil, tblk, AnyIter.all, DIterMem.all, zs_cons]
            refine List.Perm.append_left _ (hat.it.perm.trans ?_)
            blocks
        | reader u p it =>
          obtain ⟨⟨hne, hle⟩, -⟩ := hf
          simp only [AnyIter.all, zs_cons] at hp'
          unfold anyNextMem
          have hp2 := hp'.trans (show List.Perm _ (zs it.ids ++ ((p, []) :: (u, []) :: besides gs s i K base)) by blocks)
          refine Safe.bind (P := fun _ R' => R' = zs it.ids ++ ((p, []) :: (u, []) :: besides gs s i K base))
            (Does.safe (.perm hp2 (does_touch (by simp)))) ?_
          intro _ R' e
          rw [e]
          refine Safe.bind (safe_readerSteps o p it c.items ((p, []) :: (u, []) :: besides gs s i K base) _ ?_ (by simp)
            (List.Perm.refl _)) ?_
          · intro x hx
            refine List.mem_cons_of_mem _ (List.mem_cons_of_mem _ ?_)
            unfold besides
            simp only [List.map_append, List.mem_append]
            exact .inr (.inr (.inr (.inr (.inr (h.kept (hne hx))))))
          rintro ⟨it', e⟩ R' ⟨k1, k2, k3, k4⟩
          simp only at k1 k2 k3 k4
          refine Does.safe (.pure ⟨[], fun _ => rfl, ?_, ?_, k4, ?_⟩)
          · exact ⟨by rw [k2]; exact hne, by rw [k3]; exact hle⟩
          · intro _ d hd
            cases hd
          · refine k1.trans ?_
            simp only [List.flatMap_cons, List.flatMap_nil, List.append_nil, tblk, AnyIter.all, zs_cons, zs_nil,
              List.nil_append]
            blocks
    · rintro ⟨a, e⟩ R' ⟨L', hL, h1, h2, h3, hR⟩
      simp only at h1 h2 h3 hR
      refine Does.safe (.pure ⟨h.kept, ⟨gs, L' ++ K, hg, fun c => by rw [hL c, hK c]; rfl,
        hR.trans (besides_put ht [e])⟩, h.readers, ?_, ?_⟩)
      · exact iters_set (t' := { t with ptr := a }) h rfl rfl ⟨h1, h2⟩
      · intro m hm
        rcases List.mem_append.1 hm with hm | hm
        · exact h.entries m hm
        · simp only [List.mem_singleton] at hm
          exact h3 m hm.symm

theorem safe_countOp (h : Inv ext base C s R) (i : Nat) :
    Safe Gentle (opMem A L s (.count i)) R fun s' R' => Inv ext base C s' R' := by
  unfold opMem
  dsimp only
  cases ht : s.iters[i]? with
  | none => exact Does.safe (.pure h)
  | some t =>
    dsimp only
    obtain ⟨gs, K, hg, hK, hp⟩ := h.own
    have hp' := hp.trans (besides_pull ht)
    refine Does.safe (Does.bind (Q := fun _ R' => R' = R) ?_ ?_)
    · unfold tblk at hp'
      cases hx : t.ptr with
      | none => exact .pure rfl
      | some it =>
        rw [hx] at hp'
        cases it with
        | query d =>
          unfold anyCountMem
          refine does_touchAll fun x hx => ids_perm hp'.symm ?_
          simp only [AnyIter.all, DIterMem.all, QIterMem.all, QIterMem.objs, ids_append, ids_zs, List.mem_append,
            List.mem_cons]
          simp only [QIterMem.counted, List.mem_cons, List.mem_append, Option.mem_toList, Option.map_eq_some_iff] at hx
          have hst : ∀ st : Option StageMem, (∃ a, st = some a ∧ a.obj = x) → x ∈ sids st := by
            rintro _ ⟨a, rfl, rfl⟩
            simp [sids]
          have hrm : ∀ st : Option RemoveMem, (∃ a, st = some a ∧ a.obj = x) → x ∈ rids st := by
            rintro _ ⟨a, rfl, rfl⟩
            simp [rids]
          rcases hx with hx | hx | ((((((hx | hx) | hx) | hx) | hx) | hx) | hx) | hx
          · simp [hx]
          · simp [hx]
          all_goals first
            | (have := hst _ hx; simp [this])
            | (have := hrm _ hx; simp [this])
        | reader u p it =>
          unfold anyCountMem
          refine does_touch ?_
          refine ids_perm hp'.symm ?_
          simp [AnyIter.all]
    · intro _ R' e
      rw [e]
      exact .pure h

theorem safe_readOp (h : Inv ext base C s R) (i : Nat) :
    Safe Gentle (opMem A L s (.read i)) R fun s' R' => Inv ext base C s' R' := by
  unfold opMem
  dsimp only
  cases hm : pointer s.entries i with
  | none => exact safe_fault gentle_null
  | some m =>
    dsimp only
    obtain ⟨gs, K, hg, hK, hp⟩ := h.own
    refine Does.safe (Does.bind (Q := fun _ R' => R' = R) ?_ ?_)
    · refine does_touchAll fun x hx => ids_perm hp.symm ?_
      simp only [ids_append, List.mem_append]
      refine .inr (.inr (.inr (.inl (ids_perm (flatMap_pull eblk (pointer_some hm)).symm ?_))))
      rw [ids_append]
      refine List.mem_append_left _ ?_
      have hl := h.entries m (mem_of_get (pointer_some hm))
      have hz : ids (m.rdatas.zip m.e.rdatas) = m.rdatas := List.map_fst_zip (by omega)
      have hb : ∀ (p : Option Nat) b, ids (blk p b) = p.toList := by
        intro p b
        cases p <;> rfl
      have hv : ∀ v, ids (vblk v) = vecBlocks v := by
        intro v
        cases v <;> rfl
      simp only [eblk, EntryMem.own, VecMem.own, ids_cons, ids_append, ids_nil, hz, hb, hv]
      simp only [List.mem_cons, List.mem_append] at hx ⊢
      rcases hx with hx | hx | hx | (((hx | hx) | hx) | hx) | hx <;> simp [hx]
    · intro _ R' e
      rw [e]
      exact .pure h

theorem Inv.addQuery (h : Inv ext base C s R) {m : QueryMem} {e : Bytes} {R' : List (Nat × Bytes)}
    (hp : R'.Perm (m.own e ++ R)) : Inv ext base C { s with queries := s.queries ++ [some m] } R' := by
  obtain ⟨gs, K, hg, hK, hp0⟩ := h.own
  refine ⟨h.kept, ⟨gs ++ [some (m, e)], K, ?_, hK, ?_⟩, h.readers, ?_, h.entries⟩
  · rw [List.map_append, hg]; rfl
  · refine (hp.trans (hp0.append_left _)).trans ?_
    simp only [List.flatMap_append, List.flatMap_cons, List.flatMap_nil, List.append_nil, qblk]
    blocks
  · intro t ht
    refine ⟨(h.iters t ht).1.mono ?_ (fun _ _ h => h), (h.iters t ht).2⟩
    intro q k _ _ hk
    unfold qself at hk ⊢
    cases hm : pointer s.queries q with
    | none => rw [hm] at hk; cases hk
    | some m' =>
      rw [hm] at hk
      simp only
      rw [pointer_append _ hm]
      exact hk

theorem Inv.addReader (h : Inv ext base C s R) {r : ReaderMem} {R' : List (Nat × Bytes)}
    (hr : (∀ src, r.source = some src → src ⊆ ext) ∧ (r.fs = none → r.source.isSome))
    (hp : R'.Perm (rblk (some r) ++ R)) : Inv ext base C { s with readers := s.readers ++ [some r] } R' := by
  obtain ⟨gs, K, hg, hK, hp0⟩ := h.own
  refine ⟨h.kept, ⟨gs, K, hg, hK, ?_⟩, ?_, ?_, h.entries⟩
  · refine (hp.trans (hp0.append_left _)).trans ?_
    simp only [List.flatMap_append, List.flatMap_cons, List.flatMap_nil, List.append_nil]
    blocks
  · intro m hm
    rcases List.mem_append.1 hm with hm | hm
    · exact h.readers m hm
    · simp only [List.mem_singleton, Option.some.injEq] at hm
      rw [hm]
      exact hr
  · intro t ht
    refine ⟨(h.iters t ht).1.mono (fun _ _ _ _ h => h) ?_, (h.iters t ht).2⟩
    intro x _ hx
    unfold rfs at hx ⊢
    cases hm : pointer s.readers t.reader with
    | none => rw [hm] at hx; cases hx
    | some m' =>
      rw [hm] at hx
      simp only
      rw [pointer_append _ hm]
      exact hx

theorem Inv.addIter (h : Inv ext base C s R) {t : Tracked} {R' : List (Nat × Bytes)}
    (ht : IterFine ext s t ∧ (C → NoRemoval t)) (hp : R'.Perm (tblk t ++ R)) :
    Inv ext base C { s with iters := s.iters ++ [t] } R' := by
  obtain ⟨gs, K, hg, hK, hp0⟩ := h.own
  refine ⟨h.kept, ⟨gs, K, hg, hK, ?_⟩, h.readers, ?_, h.entries⟩
  · refine (hp.trans (hp0.append_left _)).trans ?_
    simp only [List.flatMap_append, List.flatMap_cons, List.flatMap_nil, List.append_nil]
    blocks
  · intro t' ht'
    rcases List.mem_append.1 ht' with ht' | ht'
    · exact ⟨(h.iters t' ht').1.mono (fun _ _ _ _ h => h) (fun _ _ h => h), (h.iters t' ht').2⟩
    · simp only [List.mem_singleton] at ht'
      rw [ht']
      exact ⟨ht.1.mono (fun _ _ _ _ h => h) (fun _ _ h => h), ht.2⟩

theorem safe_newQueryOp (h : Inv ext base C s R) (t : QType) :
    Safe Gentle (opMem A L s (.newQuery t)) R fun s' R' => Inv ext base C s' R' := by
  unfold opMem
  dsimp only
  by_cases ht : t = .sourceInfo
  · subst ht
    exact fun _ _ => .inr ⟨.abort, rfl, nofun, nofun⟩
  · refine Safe.bind (does_queryInit t ht R).safe ?_
    rintro m R' ⟨-, -, hp⟩
    exact Does.safe (.pure (h.addQuery hp))

theorem safe_callOp (hA : RealShifts A) (h : Inv ext base C s R) (q : Nat) (c : QueryCall) :
    Safe Gentle (opMem A L s (.call q c)) R fun s' R' => Inv ext base C s' R' := by
  unfold opMem
  dsimp only
  cases hm : pointer s.queries q with
  | none => exact safe_fault gentle_null
  | some m =>
    dsimp only
    obtain ⟨gs, K, hg, hK, hp⟩ := h.own
    obtain ⟨e, he⟩ := ghost_get hg hm
    refine .perm (hp.trans ((flatMap_pull qblk he).append_right _)) ?_
    simp only [qblk, List.append_assoc]
    refine Safe.bind (P := fun a R' => ∃ e', R'.Perm (a.1.own e' ++ ((gs.eraseIdx q).flatMap qblk ++
      (s.readers.flatMap rblk ++ (s.iters.flatMap tblk ++ (s.entries.flatMap eblk ++ (zs K ++ base)))))) ∧
      a.1.self = m.self) ?_ ?_
    · rcases Shifts.applySetters hA L m.q (settersOf [c]) with hs | ⟨⟨q', bs⟩, hs⟩
      · intro hp H
        exact .inr ⟨.badShift, (breaks_calls A L m [c] e _ hp H).2 _ hs, nofun, nofun⟩
      · refine Does.safe ((does_calls A L m [c] q' bs hs e _).weaken ?_)
        rintro a R' ⟨e', h1, -, h2, -⟩
        exact ⟨e', h1, h2⟩
    · rintro ⟨m', as⟩ R' ⟨e', hR, hself⟩
      simp only at hR hself
      refine Does.safe (.pure ⟨h.kept, ⟨gs.set q (some (m', e')), K, ?_, hK, ?_⟩, h.readers, ?_, h.entries⟩)
      · rw [List.map_set, hg]; rfl
      · refine hR.trans (.trans ?_ ((flatMap_put qblk he (some (m', e'))).symm.append_right _))
        simp only [qblk]
        blocks
      · intro t ht
        refine ⟨(h.iters t ht).1.mono ?_ (fun _ _ h => h), (h.iters t ht).2⟩
        intro q' k _ _ hk
        unfold qself at hk ⊢
        simp only
        by_cases hq : q = q'
        · subst hq
          rw [pointer_set_eq hm]
          rw [hm] at hk
          simp only [Option.map_some] at hk ⊢
          rw [hself]
          exact hk
        · rwa [pointer_set_ne _ _ hq]

theorem safe_newReaderOp (h : Inv ext base C s R) (src : List Nat) (hs : src ⊆ ext) :
    Safe Gentle (opMem A L s (.newReader src)) R fun s' R' => Inv ext base C s' R' := by
  unfold opMem
  refine Does.safe (Does.bind (Q := fun r R' => r.source = some src ∧ R'.Perm (rblk (some r) ++ R)) ?_ ?_)
  · unfold readerInitMem
    refine (does_alloc _ _).bind ?_
    rintro p R' ⟨e, -⟩
    rw [e]
    exact .pure ⟨rfl, List.Perm.refl _⟩
  · rintro r R' ⟨e, hp⟩
    refine .pure (h.addReader ⟨?_, ?_⟩ hp)
    · intro src' e'
      rw [e] at e'
      cases e'
      exact hs
    · intro _
      rw [e]
      rfl

theorem safe_newSetfileOp (h : Inv ext base C s R) :
    Safe Gentle (opMem A L s .newSetfile) R fun s' R' => Inv ext base C s' R' := by
  unfold opMem
  refine Does.safe (Does.bind (Q := fun r R' => r.source = none ∧ r.fs.isSome ∧ R'.Perm (rblk (some r) ++ R)) ?_ ?_)
  · unfold readerInitSetfileMem
    refine (does_alloc _ _).bind ?_
    rintro p R' ⟨e, -⟩
    rw [e]
    refine (does_alloc _ _).bind ?_
    rintro f R' ⟨e, -⟩
    rw [e]
    refine (does_touch (by simp)).bind ?_
    intro _ R' e
    rw [e]
    refine (does_alloc _ _).bind ?_
    rintro g R' ⟨e, -⟩
    rw [e]
    refine .perm (List.Perm.swap _ _ _) ?_
    refine (does_free _ _ _).bind ?_
    intro _ R' e
    rw [e]
    exact .pure ⟨rfl, rfl, List.Perm.swap _ _ _⟩
  · rintro r R' ⟨e, hf, hp⟩
    refine .pure (h.addReader ⟨?_, ?_⟩ hp)
    · intro src' e'
      rw [e] at e'
      cases e'
    · intro hn
      rw [hn] at hf
      cases hf

theorem reader_live (h : Inv ext base C s R) {r : Nat} {m : ReaderMem} (hm : pointer s.readers r = some m) :
    m.self ∈ ids R ∧ m.fs.toList ⊆ ids R := by
  obtain ⟨gs, K, hg, hK, hp⟩ := h.own
  have : ids (rblk (some m)) ⊆ ids R := fun x hx => ids_perm hp.symm (by
    simp only [ids_append, List.mem_append]
    refine .inr (.inl (ids_perm (flatMap_pull rblk (pointer_some hm)).symm ?_))
    rw [ids_append]
    exact List.mem_append_left _ hx)
  refine ⟨this (by simp [rblk]), fun x hx => this ?_⟩
  cases hf : m.fs with
  | none => rw [hf] at hx; cases hx
  | some f =>
    rw [hf] at hx
    simp only [Option.toList_some, List.mem_singleton] at hx
    simp [rblk, hf, blk, hx]

theorem ext_live (h : Inv ext base C s R) : ext ⊆ ids R := by
  obtain ⟨gs, K, hg, hK, hp⟩ := h.own
  intro x hx
  refine ids_perm hp.symm ?_
  simp only [ids_append, List.mem_append]
  exact .inr (.inr (.inr (.inr (.inr (h.kept hx)))))

theorem query_live (h : Inv ext base C s R) {q : Nat} {m : QueryMem} (hm : pointer s.queries q = some m) :
    m.self ∈ ids R := by
  obtain ⟨gs, K, hg, hK, hp⟩ := h.own
  refine ids_perm hp.symm ?_
  rw [ids_append]
  refine List.mem_append_left _ (self_mem hg (q := q) ?_)
  unfold qself
  rw [hm]
  rfl

theorem safe_reloadOp (h : Inv ext base C s R) (r : Nat) :
    Safe Gentle (opMem A L s (.reload r)) R fun s' R' => Inv ext base C s' R' := by
  unfold opMem
  dsimp only
  cases hm : pointer s.readers r with
  | none => exact safe_fault gentle_null
  | some m =>
    dsimp only
    obtain ⟨h1, h2⟩ := reader_live h hm
    refine Does.safe (Does.bind (Q := fun _ R' => R' = R) ?_ ?_)
    · unfold readerReloadMem
      refine (does_touch h1).bind ?_
      intro _ R' e
      rw [e]
      split
      · next fs hf => exact does_touch (h2 (by simp [hf]))
      · exact .pure rfl
    · intro _ R' e
      rw [e]
      exact .pure h

theorem safe_iterateOp (h : Inv ext base C s R) (r : Nat) (o : Heap → Bool) :
    Safe Gentle (opMem A L s (.iterate r o)) R fun s' R' => Inv ext base C s' R' := by
  unfold opMem
  dsimp only
  cases hm : pointer s.readers r with
  | none => exact safe_fault gentle_null
  | some m =>
    dsimp only
    obtain ⟨h1, -⟩ := reader_live h hm
    refine Safe.bind (P := fun a R' => ∃ u p it, a = .reader u p it ∧ it.needs ⊆ ext ∧ it.leaks = [] ∧
      R'.Perm (zs a.all ++ R)) ?_ ?_
    · unfold readerIterMem
      refine Safe.bind (does_alloc [] R).safe ?_
      rintro p R' ⟨e, -⟩
      rw [e]
      refine Safe.bind (P := fun _ R' => R' = (p, []) :: R) (does_touch (List.mem_cons_of_mem _ h1)).safe ?_
      intro _ R' e
      rw [e]
      split
      · exact safe_fault gentle_null
      · next src hs =>
        have hsrc := (h.readers m (mem_of_get (pointer_some hm))).1 src hs
        refine Does.safe ((does_openBase o src ((p, []) :: R) (fun x hx => List.mem_cons_of_mem _ (ext_live h (hsrc hx)))).bind ?_)
        rintro it R' ⟨k1, k2, k3, -⟩
        refine (does_alloc _ _).bind ?_
        rintro d R' ⟨e, -⟩
        rw [e]
        refine .pure ⟨d, p, it, rfl, fun x hx => hsrc (k2 hx), k3, ?_⟩
        simp only [AnyIter.all, zs_cons]
        refine (k1.cons _).trans ?_
        blocks
    · rintro a R' ⟨u, p, it, rfl, k1, k2, k3⟩
      exact Does.safe (.pure (h.addIter ⟨⟨k1, k2⟩, fun _ d hd => by cases hd⟩ k3))

theorem safe_queryOp (h : Inv ext base C s R) (r q : Nat) (o : Heap → Bool) (files : List FileMem)
    (hf : ∀ f ∈ files, f.block ∈ ext) (hc : C → removal s (.query r q o files) = false) :
    Safe Gentle (opMem A L s (.query r q o files)) R fun s' R' => Inv ext base C s' R' := by
  unfold opMem
  dsimp only
  unfold removal at hc
  dsimp only at hc
  split
  · next m n hm hn =>
    rw [hm, hn] at hc
    dsimp only at hc
    obtain ⟨h1, h2⟩ := reader_live h hm
    have hq := query_live h hn
    have hqs : qself s q = some n.self := by unfold qself; rw [hn]; rfl
    refine Safe.bind (P := fun a R' => IterFine ext s ⟨a, r, some q⟩ ∧ (C → NoRemoval ⟨a, r, some q⟩) ∧
      R'.Perm (tblk ⟨a, r, some q⟩ ++ R)) ?_ ?_
    · unfold readerQueryMem
      refine Safe.bind (P := fun _ R' => R' = R) (does_touch h1).safe ?_
      intro _ R' e
      rw [e]
      cases hfs : m.fs with
      | some fs =>
        dsimp only
        have hr : rfs s r = some fs := by unfold rfs; rw [hm]; exact hfs
        refine Safe.bind ((safe_queryIterFileset o n fs files (fs :: ext) R List.mem_cons_self
          (fun x hx => List.mem_cons_of_mem _ (hf x hx)) (fun x hx => ?_) hq).weaken (fun f hx => ?_) (fun _ _ h => h)) ?_
        · rcases List.mem_cons.1 hx with rfl | hx
          · exact h2 (by simp [hfs])
          · exact ext_live h hx
        · rcases hx with ⟨x, -, k, v, -, hx⟩ | hx
          · exact (Tame.entryDecode _ _).gentle hx
          · exact (Tame.initKind _).gentle hx
        · rintro a R' (⟨-, rfl, hp⟩ | ⟨p, d, -, rfl, k1, -, -, k4, -, k6⟩)
          · exact Does.safe (.pure ⟨trivial, fun _ d hd => (by cases hd), hp⟩)
          · refine Does.safe (.pure ⟨⟨q, n.self, fs :: ext, rfl, hqs, k1, ?_⟩, ?_, k6⟩)
            · intro x hx
              rcases List.mem_cons.1 hx with rfl | hx
              · exact .inr hr
              · exact .inl hx
            · intro c d' hd
              cases hd
              cases hrs : d.it.removeStrict with
              | none => rfl
              | some y =>
                have hx := k4 (by rw [hrs]; rfl)
                have hz := hc c
                unfold Query.removes at hx
                rw [hfs, Bool.and_assoc, hx] at hz
                cases hz
      | none =>
       cases hsrc : m.source with
       | none => exact safe_fault gentle_null
       | some src =>
        dsimp only
        have hs := (h.readers m (mem_of_get (pointer_some hm))).1 src hsrc
        have hrun := runs_queryIter o n src R (fun x hx => ext_live h (hs hx)) hq
        refine Safe.bind (hrun.safe.weaken (fun f hx => (Tame.initKind _).gentle hx) (fun _ _ h => h)) ?_
        rintro a R' (⟨p, -, d, rfl, k1, -, -, k4, -, k6⟩ | ⟨-, rfl, hp⟩)
        · refine Does.safe (.pure ⟨⟨q, n.self, src, rfl, hqs, k1, fun x hx => .inl (hs hx)⟩, ?_, k6⟩)
          intro c d' hd
          cases hd
          exact k4
        · exact Does.safe (.pure ⟨trivial, fun _ d hd => (by cases hd), hp⟩)
    · rintro a R' ⟨k1, k2, k3⟩
      exact Does.safe (.pure (h.addIter ⟨k1, k2⟩ k3))
  · exact safe_fault gentle_null

/-! ## Programs -/

theorem safe_op (hA : RealShifts A) (h : Inv ext base C s R) (o : Op) (ho : allowed ext s o = true)
    (hc : C → removal s o = false) : Safe Gentle (opMem A L s o) R fun s' R' => Inv ext base C s' R' := by
  cases o with
  | newQuery t => exact safe_newQueryOp h t
  | call q c => exact safe_callOp hA h q c
  | destroyQuery q =>
    exact (((does_destroyQueryOp h q (by simpa [allowed] using ho)).weaken fun _ _ h => h.2)).safe
  | newReader src =>
    refine safe_newReaderOp h src fun x hx => ?_
    simp only [allowed, List.all_eq_true] at ho
    simpa using ho x hx
  | newSetfile => exact safe_newSetfileOp h
  | reload r => exact safe_reloadOp h r
  | destroyReader r =>
    exact (((does_destroyReaderOp h r (by simpa [allowed] using ho)).weaken fun _ _ h => h.2)).safe
  | iterate r opens => exact safe_iterateOp h r opens
  | query r q opens files =>
    refine safe_queryOp h r q opens files (fun f hf => ?_) hc
    simp only [allowed, Bool.and_eq_true, List.all_eq_true] at ho
    simpa using ho.2 f hf
  | next i opens c => exact safe_nextOp h i opens c
  | count i => exact safe_countOp h i
  | destroyIter i => exact ((does_destroyIterOp h i).weaken fun _ _ h => h.2).safe
  | read e => exact safe_readOp h e
  | destroyEntry e => exact ((does_destroyEntryOp h e).weaken fun _ _ h => h.2).safe

theorem safe_program (hA : RealShifts A) (rule : Session → Op → Bool)
    (hrule : ∀ s o, rule s o = true → allowed ext s o = true)
    (hc : C → ∀ s o, rule s o = true → removal s o = false) (os : List Op) (h : Inv ext base C s R) :
    Safe Gentle (programMem A L rule s os) R fun s' R' => Inv ext base C s' R' := by
  induction os generalizing s R with
  | nil => exact Does.safe (.pure h)
  | cons o os ih =>
    unfold programMem
    split
    · next hr =>
      exact Safe.bind (safe_op hA h o (hrule _ _ hr) (fun c => hc c _ _ hr)) fun s' R' h' => ih h'
    · exact ih h

/-! ## The end of a program -/

theorem mem_bind_assoc {α β γ : Type} (x : Mem α) (f : α → Mem β) (g : β → Mem γ) :
    (x >>= f) >>= g = x >>= fun a => f a >>= g := by
  funext h
  show ((x h >>= fun p => f p.1 p.2) >>= fun p => g p.1 p.2) = (x h >>= fun p => (f p.1 p.2 >>= fun p => g p.1 p.2))
  cases x h <;> rfl

theorem program_cons (rule : Session → Op → Bool) (s : Session) (o : Op) (os : List Op) :
    programMem A L rule s (o :: os) =
      if rule s o then opMem A L s o >>= fun s => programMem A L rule s os else programMem A L rule s os := rfl

theorem program_append (rule : Session → Op → Bool) (s : Session) (a b : List Op) :
    programMem A L rule s (a ++ b) = programMem A L rule s a >>= fun s' => programMem A L rule s' b := by
  induction a generalizing s with
  | nil => rfl
  | cons o a ih =>
    rw [List.cons_append, program_cons, program_cons]
    split
    · rw [mem_bind_assoc]
      congr 1
      funext s'
      exact ih s'
    · exact ih s

theorem does_destroyIters (is : List Nat) (h : Inv ext base C s R) :
    Does (programMem A L (allowed ext) s (is.map .destroyIter)) R fun s' R' => Inv ext base C s' R' ∧
      s'.queries = s.queries ∧ s'.readers = s.readers ∧ s'.entries = s.entries ∧ s'.iters.length = s.iters.length ∧
      ∀ i t, s'.iters[i]? = some t → (i ∈ is ∨ ∃ t0, s.iters[i]? = some t0 ∧ t0.ptr = none) → t.ptr = none := by
  induction is generalizing s R with
  | nil =>
    refine .pure ⟨h, rfl, rfl, rfl, rfl, ?_⟩
    rintro i t ht (hi | ⟨t0, h0, hn⟩)
    · cases hi
    · rw [ht] at h0
      cases h0
      exact hn
  | cons j is ih =>
    rw [List.map_cons, program_cons, if_pos (show allowed ext s (.destroyIter j) = true from rfl)]
    refine (does_destroyIterOp h j).bind ?_
    rintro s1 R1 ⟨e1, h1⟩
    have hq : s1.queries = s.queries ∧ s1.readers = s.readers ∧ s1.entries = s.entries ∧
        s1.iters.length = s.iters.length ∧
        ∀ i t0, s.iters[i]? = some t0 → (i = j ∨ t0.ptr = none) → ∃ t1, s1.iters[i]? = some t1 ∧ t1.ptr = none := by
      rw [e1]
      unfold nullIter
      cases ht : s.iters[j]? with
      | none =>
        refine ⟨rfl, rfl, rfl, rfl, ?_⟩
        rintro i t0 hi (rfl | hn)
        · rw [ht] at hi; cases hi
        · exact ⟨t0, hi, hn⟩
      | some t =>
        refine ⟨rfl, rfl, rfl, List.length_set, ?_⟩
        intro i t0 hi hc
        have hl := (List.getElem?_eq_some_iff.1 hi).1
        by_cases hij : j = i
        · subst hij
          exact ⟨{ t with ptr := none }, by simp [hl], rfl⟩
        · refine ⟨t0, by simp only [List.getElem?_set_ne hij]; exact hi, ?_⟩
          rcases hc with rfl | hn
          · exact absurd rfl hij
          · exact hn
    obtain ⟨q1, q2, q3, q4, q5⟩ := hq
    refine (ih h1).weaken ?_
    rintro s' R' ⟨k1, k2, k3, k4, k5, k6⟩
    refine ⟨k1, k2.trans q1, k3.trans q2, k4.trans q3, k5.trans q4, ?_⟩
    intro i t ht hc
    have hl : i < s.iters.length := by
      have := (List.getElem?_eq_some_iff.1 ht).1
      omega
    have h0 : s.iters[i]? = some s.iters[i] := List.getElem?_eq_getElem hl
    rcases hc with hi | ⟨t0, h0, hn⟩
    · rcases List.mem_cons.1 hi with rfl | hi
      · exact k6 i t ht (.inr (q5 _ _ h0 (.inl rfl)))
      · exact k6 i t ht (.inl hi)
    · exact k6 i t ht (.inr (q5 i t0 h0 (.inr hn)))

/-- All these pointers are set to NULL. -/
def nullAll {α : Type} (l : List (Option α)) (is : List Nat) : List (Option α) := is.foldl (fun l i => l.set i none) l

theorem nullAll_length {α : Type} (l : List (Option α)) (is : List Nat) : (nullAll l is).length = l.length := by
  induction is generalizing l with
  | nil => rfl
  | cons i is ih => exact (ih _).trans List.length_set

theorem nullAll_get {α : Type} (l : List (Option α)) (is : List Nat) (j : Nat) {x : Option α}
    (h : (nullAll l is)[j]? = some x) (hj : j ∈ is ∨ l[j]? = some none) : x = none := by
  induction is generalizing l with
  | nil =>
    rcases hj with hj | hj
    · cases hj
    · change l[j]? = some x at h
      rw [h] at hj
      exact Option.some.inj hj
  | cons i is ih =>
    have hl : j < l.length := by
      have := (List.getElem?_eq_some_iff.1 h).1
      rw [nullAll_length] at this
      exact this
    refine ih (l.set i none) h ?_
    by_cases hij : i = j
    · subst hij
      exact .inr (by simp [hl])
    · rcases hj with hj | hj
      · exact .inl ((List.mem_cons.1 hj).resolve_left fun e => hij e.symm)
      · exact .inr (by rw [List.getElem?_set_ne hij]; exact hj)

theorem nullAll_range {α : Type} (l : List (Option α)) : ∀ x ∈ nullAll l (List.range l.length), x = none := by
  intro x hx
  obtain ⟨j, hj⟩ := List.mem_iff_getElem?.1 hx
  have hl := (List.getElem?_eq_some_iff.1 hj).1
  rw [nullAll_length] at hl
  exact nullAll_get l _ j hj (.inl (List.mem_range.2 hl))

theorem does_destroyQueries (is : List Nat) (h : Inv ext base C s R) (hn : ∀ t ∈ s.iters, t.ptr = none) :
    Does (programMem A L (allowed ext) s (is.map .destroyQuery)) R fun s' R' => Inv ext base C s' R' ∧
      s' = { s with queries := nullAll s.queries is } := by
  induction is generalizing s R with
  | nil => exact .pure ⟨h, rfl⟩
  | cons j is ih =>
    have hu : queryInUse s j = false := by
      unfold queryInUse
      rw [List.any_eq_false]
      intro t ht
      simp [hn t ht]
    rw [List.map_cons]
    unfold programMem
    rw [if_pos (by simp [allowed, hu])]
    refine (does_destroyQueryOp h j hu).bind ?_
    rintro s1 R1 ⟨rfl, h1⟩
    exact ih h1 hn

theorem does_destroyReaders (is : List Nat) (h : Inv ext base C s R) (hn : ∀ t ∈ s.iters, t.ptr = none) :
    Does (programMem A L (allowed ext) s (is.map .destroyReader)) R fun s' R' => Inv ext base C s' R' ∧
      s' = { s with readers := nullAll s.readers is } := by
  induction is generalizing s R with
  | nil => exact .pure ⟨h, rfl⟩
  | cons j is ih =>
    have hu : setfileInUse s j = false := by
      unfold setfileInUse
      split
      · rfl
      · rw [Bool.and_eq_false_iff]
        right
        rw [List.any_eq_false]
        intro t ht
        simp [hn t ht]
    rw [List.map_cons]
    unfold programMem
    rw [if_pos (by simp [allowed, hu])]
    refine (does_destroyReaderOp h j hu).bind ?_
    rintro s1 R1 ⟨rfl, h1⟩
    exact ih h1 hn

theorem does_destroyEntries (is : List Nat) (h : Inv ext base C s R) :
    Does (programMem A L (allowed ext) s (is.map .destroyEntry)) R fun s' R' => Inv ext base C s' R' ∧
      s' = { s with entries := nullAll s.entries is } := by
  induction is generalizing s R with
  | nil => exact .pure ⟨h, rfl⟩
  | cons j is ih =>
    rw [List.map_cons, program_cons, if_pos (show allowed ext s (.destroyEntry j) = true from rfl)]
    refine (does_destroyEntryOp h j).bind ?_
    rintro s1 R1 ⟨rfl, h1⟩
    exact ih h1

theorem flatMap_null {α β : Type} (f : α → List β) (l : List α) (h : ∀ x ∈ l, f x = []) : l.flatMap f = [] := by
  rw [List.flatMap_eq_nil_iff]
  exact h

theorem does_cleanup (h : Inv ext base C s R) :
    Does (programMem A L (allowed ext) s (cleanup s)) R fun s' R' => AllNull s' ∧
      ∃ K, (C → K = []) ∧ R'.Perm (zs K ++ base) := by
  unfold cleanup
  rw [program_append, program_append, program_append, mem_bind_assoc, mem_bind_assoc]
  refine (does_destroyIters _ h).bind ?_
  rintro s1 R1 ⟨h1, a1, a2, a3, a4, a5⟩
  have hn : ∀ t ∈ s1.iters, t.ptr = none := by
    intro t ht
    obtain ⟨i, hi⟩ := List.mem_iff_getElem?.1 ht
    refine a5 i t hi (.inl (List.mem_range.2 ?_))
    have := (List.getElem?_eq_some_iff.1 hi).1
    omega
  refine (does_destroyQueries _ h1 hn).bind ?_
  rintro s2 R2 ⟨h2, rfl⟩
  refine (does_destroyReaders _ h2 hn).bind ?_
  rintro s3 R3 ⟨h3, rfl⟩
  refine (does_destroyEntries _ h3).weaken ?_
  rintro s4 R4 ⟨h4, rfl⟩
  rw [← a1, ← a2, ← a3] at *
  have hN : AllNull { s1 with
      queries := nullAll s1.queries (List.range s1.queries.length)
      readers := nullAll s1.readers (List.range s1.readers.length)
      entries := nullAll s1.entries (List.range s1.entries.length) } :=
    ⟨hn, nullAll_range _, nullAll_range _, nullAll_range _⟩
  refine ⟨hN, ?_⟩
  obtain ⟨gs, K, hg, hK, hp⟩ := h4.own
  refine ⟨K, hK, hp.trans ?_⟩
  rw [flatMap_null qblk, flatMap_null rblk, flatMap_null tblk, flatMap_null eblk]
  · exact List.Perm.refl _
  · intro x hx
    rw [hN.2.2.2 x hx]; rfl
  · intro x hx
    unfold tblk
    rw [hN.1 x hx]
  · intro x hx
    rw [hN.2.2.1 x hx]; rfl
  · intro x hx
    have := hN.2.1 (x.map Prod.fst) (by
      simp only at hg ⊢
      rw [← hg]
      exact List.mem_map_of_mem hx)
    cases x with
    | none => rfl
    | some g => cases this

theorem Inv.empty (hext : ext ⊆ ids base) : Inv ext base C {} base :=
  ⟨hext, ⟨[], [], rfl, fun _ => rfl, List.Perm.refl _⟩, fun _ h => (List.not_mem_nil h).elim,
    fun _ h => (List.not_mem_nil h).elim, fun _ h => (List.not_mem_nil h).elim⟩

/-! ## Entries stay -/

theorem mem_bind_ok {α β : Type} {x : Mem α} {f : α → Mem β} {h h' : Heap} {b : β} (e : (x >>= f) h = .ok (b, h')) :
    ∃ a h1, x h = .ok (a, h1) ∧ f a h1 = .ok (b, h') := by
  change (x h >>= fun p => f p.1 p.2) = _ at e
  cases hx : x h with
  | ok r => rw [hx] at e; exact ⟨r.1, r.2, rfl, e⟩
  | fail => rw [hx] at e; cases e
  | fault f => rw [hx] at e; cases e

theorem op_entries {s s' : Session} {o : Op} {h h' : Heap} (e : opMem A L s o h = .ok (s', h')) {i : Nat} {m : EntryMem}
    (hi : pointer s.entries i = some m) (ho : o ≠ .destroyEntry i) : pointer s'.entries i = some m := by
  cases o with
  | destroyEntry j =>
    obtain ⟨a, h1, -, e⟩ := mem_bind_ok (f := fun m => (pure { s with entries := s.entries.set j m } : Mem Session)) e
    cases e
    simp only
    rwa [pointer_set_ne _ _ (fun hj => ho (by rw [hj]))]
  | next j opens c =>
    unfold opMem at e
    dsimp only at e
    cases hx : s.iters[j]? with
    | none => rw [hx] at e; cases e; exact hi
    | some a =>
      rw [hx] at e
      obtain ⟨b, h1, -, e⟩ := mem_bind_ok e
      cases e
      exact pointer_append _ hi
  | newQuery t =>
    obtain ⟨a, h1, -, e⟩ := mem_bind_ok (f := fun m => (pure { s with queries := s.queries ++ [some m] } : Mem Session)) e
    cases e; exact hi
  | newReader t =>
    obtain ⟨a, h1, -, e⟩ := mem_bind_ok (f := fun m => (pure { s with readers := s.readers ++ [some m] } : Mem Session)) e
    cases e; exact hi
  | newSetfile =>
    obtain ⟨a, h1, -, e⟩ := mem_bind_ok (f := fun m => (pure { s with readers := s.readers ++ [some m] } : Mem Session)) e
    cases e; exact hi
  | destroyQuery q =>
    obtain ⟨a, h1, -, e⟩ := mem_bind_ok (f := fun m => (pure { s with queries := s.queries.set q m } : Mem Session)) e
    cases e; exact hi
  | destroyReader r =>
    obtain ⟨a, h1, -, e⟩ := mem_bind_ok (f := fun m => (pure { s with readers := s.readers.set r m } : Mem Session)) e
    cases e; exact hi
  | call q c =>
    unfold opMem at e
    dsimp only at e
    cases hx : pointer s.queries q with
    | none => rw [hx] at e; cases e
    | some a =>
      rw [hx] at e
      obtain ⟨b, h1, -, e⟩ := mem_bind_ok e
      cases e
      exact hi
  | reload r =>
    unfold opMem at e
    dsimp only at e
    cases hx : pointer s.readers r with
    | none => rw [hx] at e; cases e
    | some a =>
      rw [hx] at e
      obtain ⟨b, h1, -, e⟩ := mem_bind_ok e
      cases e
      exact hi
  | iterate r opens =>
    unfold opMem at e
    dsimp only at e
    cases hx : pointer s.readers r with
    | none => rw [hx] at e; cases e
    | some a =>
      rw [hx] at e
      obtain ⟨b, h1, -, e⟩ := mem_bind_ok e
      cases e
      exact hi
  | query r q opens files =>
    unfold opMem at e
    dsimp only at e
    cases hx : pointer s.readers r with
    | none => rw [hx] at e; cases e
    | some a =>
      cases hy : pointer s.queries q with
      | none => rw [hx, hy] at e; cases e
      | some b =>
        rw [hx, hy] at e
        obtain ⟨b, h1, -, e⟩ := mem_bind_ok e
        cases e
        exact hi
  | count j =>
    unfold opMem at e
    dsimp only at e
    cases hx : s.iters[j]? with
    | none => rw [hx] at e; cases e; exact hi
    | some a =>
      rw [hx] at e
      obtain ⟨b, h1, -, e⟩ := mem_bind_ok e
      cases e
      exact hi
  | destroyIter j =>
    unfold opMem at e
    dsimp only at e
    cases hx : s.iters[j]? with
    | none => rw [hx] at e; cases e; exact hi
    | some a =>
      rw [hx] at e
      obtain ⟨b, h1, -, e⟩ := mem_bind_ok e
      cases e
      exact hi
  | read j =>
    unfold opMem at e
    dsimp only at e
    cases hx : pointer s.entries j with
    | none => rw [hx] at e; cases e
    | some a =>
      rw [hx] at e
      obtain ⟨b, h1, -, e⟩ := mem_bind_ok e
      cases e
      exact hi

theorem program_entries {rule : Session → Op → Bool} {os : List Op} {s s' : Session} {h h' : Heap}
    (e : programMem A L rule s os h = .ok (s', h')) {i : Nat} {m : EntryMem} (hi : pointer s.entries i = some m)
    (ho : ∀ o ∈ os, o ≠ .destroyEntry i) : pointer s'.entries i = some m := by
  induction os generalizing s h with
  | nil => cases e; exact hi
  | cons o os ih =>
    rw [program_cons] at e
    split at e
    · obtain ⟨s1, h1, e1, e2⟩ := mem_bind_ok e
      exact ih e2 (op_entries e1 hi (ho o List.mem_cons_self)) fun o h => ho o (List.mem_cons_of_mem _ h)
    · exact ih e hi fun o h => ho o (List.mem_cons_of_mem _ h)

theorem entry_own (h : Inv ext base C s R) {i : Nat} {m : EntryMem} (hi : pointer s.entries i = some m) :
    m.rdatas.length = m.e.rdatas.length ∧ ∀ b ∈ m.own, b ∈ R := by
  obtain ⟨gs, K, hg, hK, hp⟩ := h.own
  refine ⟨h.entries m (mem_of_get (pointer_some hi)), fun b hb => hp.symm.subset ?_⟩
  simp only [List.mem_append]
  refine .inr (.inr (.inr (.inl ((flatMap_pull eblk (pointer_some hi)).symm.subset ?_))))
  exact List.mem_append_left _ hb

end ops

end Verif
