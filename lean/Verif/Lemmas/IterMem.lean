import Verif.Lemmas.EntryMem
import Verif.Lemmas.QueryMem
import Verif.Model.IterMem

/-! The blocks of iterators: what they own, what they need, what they leave behind. -/

namespace Verif

/-- Blocks without interesting contents. -/
def zs (ps : List Nat) : List (Nat × Bytes) := ps.map fun p => (p, [])

@[simp] theorem zs_nil : zs [] = [] := rfl
@[simp] theorem zs_cons (p : Nat) (ps : List Nat) : zs (p :: ps) = (p, []) :: zs ps := rfl
@[simp] theorem zs_append (ps qs : List Nat) : zs (ps ++ qs) = zs ps ++ zs qs := List.map_append
@[simp] theorem zs_toList (p : Option Nat) : zs p.toList = blk p [] := by cases p <;> rfl
@[simp] theorem zs_fst (ps : List Nat) : (zs ps).map Prod.fst = ps := by
  induction ps with
  | nil => rfl
  | cons p ps ih => simp [ih]

/-- The numbers of the blocks. -/
def ids (R : List (Nat × Bytes)) : List Nat := R.map Prod.fst

@[simp] theorem ids_zs (ps : List Nat) : ids (zs ps) = ps := zs_fst ps
@[simp] theorem ids_append (R S : List (Nat × Bytes)) : ids (R ++ S) = ids R ++ ids S := List.map_append
@[simp] theorem ids_cons (b : Nat × Bytes) (R : List (Nat × Bytes)) : ids (b :: R) = b.1 :: ids R := rfl
@[simp] theorem ids_nil : ids [] = [] := rfl
theorem ids_perm {R S : List (Nat × Bytes)} (h : R.Perm S) : ids R ⊆ ids S := fun _ hx =>
  (h.map Prod.fst).mem_iff.1 hx

theorem does_touchAll {ps : List Nat} {R : List (Nat × Bytes)} (h : ps ⊆ ids R) :
    Does (touchAllMem ps) R fun _ R' => R' = R := by
  induction ps with
  | nil => exact .pure rfl
  | cons p ps ih =>
    unfold touchAllMem
    refine (does_touch (h List.mem_cons_self)).bind ?_
    intro _ R' e
    rw [e]
    exact ih fun x hx => h (List.mem_cons_of_mem _ hx)

theorem does_get (R : List (Nat × Bytes)) : Does (get : Mem Heap) R fun _ R' => R' = R :=
  fun h H => ⟨h, h, R, rfl, H, rfl⟩

/-- What an iterator owns. -/
def IterMem.ids : IterMem → List Nat
  | .null => []
  | .base _ o => [o]
  | .filter _ o s w it => o :: s :: w :: it.ids
  | .timeout _ o s it => o :: s :: it.ids
  | .ljoin _ o s m l r => o :: s :: (m.toList ++ l.ids ++ r.ids)
  | .remove _ o s e k k2 os it => o :: s :: e :: (k.toList ++ k2.toList ++ os.filterMap Prod.snd ++ it.ids)

/-- What an iterator uses without owning it. -/
def IterMem.needs : IterMem → List Nat
  | .null => []
  | .base n _ => n
  | .filter n _ _ _ it => n ++ it.needs
  | .timeout n _ _ it => n ++ it.needs
  | .ljoin n _ _ _ l r => n ++ l.needs ++ r.needs
  | .remove n _ _ _ _ _ os it => n ++ os.map Prod.fst ++ it.needs

/-- What an iterator leaves behind when it is destroyed: the copies of keys of removal stages. -/
def IterMem.leaks : IterMem → List Nat
  | .null => []
  | .base _ _ => []
  | .filter _ _ _ _ it => it.leaks
  | .timeout _ _ _ it => it.leaks
  | .ljoin _ _ _ _ l r => l.leaks ++ r.leaks
  | .remove _ _ _ _ k k2 _ it => k.toList ++ k2.toList ++ it.leaks

/-- What a source uses. -/
def SrcMem.needs : SrcMem → List Nat
  | .base n => n
  | .filter o s d up => o :: s :: (d ++ up.needs)
  | .timeout o s d up => o :: s :: (d ++ up.needs)
  | .ljoin o s l r => o :: s :: (l.needs ++ r)
  | .remove o s v rm up => o :: s :: v.self :: v.arr :: (rm ++ up.needs)

/-- There is no removal stage. -/
def SrcMem.plain : SrcMem → Prop
  | .base _ => True
  | .filter _ _ _ up => up.plain
  | .timeout _ _ _ up => up.plain
  | .ljoin _ _ l _ => l.plain
  | .remove _ _ _ _ _ => False

theorem does_openBase (o : Heap → Bool) (n : List Nat) (R : List (Nat × Bytes)) (h : n ⊆ ids R) :
    Does (openBaseMem o n) R fun it R' => R'.Perm (zs it.ids ++ R) ∧ it.needs ⊆ n ∧ it.leaks = [] ∧
      (it = .null ∨ ∃ p, it = .base n p) := by
  unfold openBaseMem
  refine (does_touchAll h).bind ?_
  intro _ R' e
  rw [e]
  refine (does_get R).bind ?_
  intro hp R' e
  rw [e]
  split
  · refine (does_alloc _ _).bind ?_
    rintro p _ ⟨rfl, -⟩
    exact .pure ⟨List.Perm.refl _, fun _ h => h, rfl, .inr ⟨p, rfl⟩⟩
  · exact .pure ⟨List.Perm.refl _, nofun, rfl, .inl rfl⟩

theorem does_copyKey (n : Nat) (R : List (Nat × Bytes)) :
    Does (copyKeyMem n) R fun p R' => R' = blk p [] ++ R := by
  unfold copyKeyMem
  split
  · refine (does_alloc _ _).bind ?_
    rintro p _ ⟨rfl, -⟩
    exact .pure rfl
  · exact .pure rfl

private theorem filterMap_none (rm : List Nat) :
    (rm.map fun p => (p, (none : Option Nat))).filterMap Prod.snd = [] := by
  induction rm with
  | nil => rfl
  | cons p rm ih => simpa using ih

private theorem map_fst_none (rm : List Nat) : (rm.map fun p => (p, (none : Option Nat))).map Prod.fst = rm := by
  induction rm with
  | nil => rfl
  | cons p rm ih => simpa using ih

theorem does_openIter (o : Heap → Bool) (n n2 : Nat) (s : SrcMem) (R : List (Nat × Bytes)) (h : s.needs ⊆ ids R) :
    Does (openIterMem o n n2 s) R fun it R' => R'.Perm (zs it.ids ++ R) ∧ it.needs ⊆ s.needs ∧
      (s.plain → it.leaks = []) := by
  induction s generalizing R with
  | base needs =>
    refine (does_openBase o needs R h).weaken ?_
    rintro it R' ⟨h1, h2, h3, -⟩
    exact ⟨h1, h2, fun _ => h3⟩
  | filter obj src data up ih =>
    unfold openIterMem
    refine (does_touchAll (ps := [src, obj]) (fun x hx => h (by simp at hx; rcases hx with rfl | rfl <;> simp [SrcMem.needs]))).bind ?_
    intro _ R' e
    rw [e]
    refine (does_alloc _ _).bind ?_
    rintro f _ ⟨rfl, -⟩
    refine (ih _ (fun x hx => List.mem_cons_of_mem _ (h (by simp [SrcMem.needs, hx])))).bind ?_
    rintro it R1 ⟨hp, h2, h3⟩
    refine (does_alloc _ _).bind ?_
    rintro w _ ⟨rfl, -⟩
    refine (does_alloc _ _).bind ?_
    rintro u _ ⟨rfl, -⟩
    refine .pure ⟨((hp.cons _).cons _).trans ?_, ?_, h3⟩
    · simp only [IterMem.ids, zs_cons]
      blocks
    · intro x hx
      simp only [IterMem.needs, SrcMem.needs, List.mem_append, List.mem_cons] at hx ⊢
      rcases hx with (hx | hx) | hx
      · exact .inl hx
      · exact .inr (.inr (.inl hx))
      · exact .inr (.inr (.inr (h2 hx)))
  | timeout obj src data up ih =>
    unfold openIterMem
    refine (does_touchAll (ps := [src, obj]) (fun x hx => h (by simp at hx; rcases hx with rfl | rfl <;> simp [SrcMem.needs]))).bind ?_
    intro _ R' e
    rw [e]
    refine (does_alloc _ _).bind ?_
    rintro f _ ⟨rfl, -⟩
    refine (ih _ (fun x hx => List.mem_cons_of_mem _ (h (by simp [SrcMem.needs, hx])))).bind ?_
    rintro it R1 ⟨hp, h2, h3⟩
    refine (does_alloc _ _).bind ?_
    rintro w _ ⟨rfl, -⟩
    refine .pure ⟨(hp.cons _).trans ?_, ?_, h3⟩
    · simp only [IterMem.ids, zs_cons]
      blocks
    · intro x hx
      simp only [IterMem.needs, SrcMem.needs, List.mem_append, List.mem_cons] at hx ⊢
      rcases hx with (hx | hx) | hx
      · exact .inl hx
      · exact .inr (.inr (.inl hx))
      · exact .inr (.inr (.inr (h2 hx)))
  | ljoin obj src left right ih =>
    unfold openIterMem
    refine (does_touchAll (ps := [src, obj]) (fun x hx => h (by simp at hx; rcases hx with rfl | rfl <;> simp [SrcMem.needs]))).bind ?_
    intro _ R' e
    rw [e]
    refine (does_alloc _ _).bind ?_
    rintro f _ ⟨rfl, -⟩
    refine (ih _ (fun x hx => List.mem_cons_of_mem _ (h (by simp [SrcMem.needs, hx])))).bind ?_
    rintro it R1 ⟨hp, h2, h3⟩
    refine .perm hp ?_
    refine (does_openBase o right _ (fun x hx => by
      have := h (show x ∈ (SrcMem.ljoin obj src left right).needs by simp [SrcMem.needs, hx])
      simp [this])).bind ?_
    rintro r R2 ⟨hp2, k2, k3, -⟩
    refine (does_alloc _ _).bind ?_
    rintro w _ ⟨rfl, -⟩
    refine .pure ⟨(hp2.cons _).trans ?_, ?_, fun hh => by simp [IterMem.leaks, h3 hh, k3]⟩
    · simp only [IterMem.ids, zs_cons, zs_append, Option.toList, zs_nil]
      blocks
    · intro x hx
      simp only [IterMem.needs, SrcMem.needs, List.mem_append, List.mem_cons, List.not_mem_nil, or_false] at hx ⊢
      rcases hx with (hx | hx) | hx
      · exact .inl hx
      · exact .inr (.inr (.inl (h2 hx)))
      · exact .inr (.inr (.inr (k2 hx)))
  | remove obj src vec rm up ih =>
    unfold openIterMem
    refine (does_touchAll (ps := [src, obj]) (fun x hx => h (by simp at hx; rcases hx with rfl | rfl <;> simp [SrcMem.needs]))).bind ?_
    intro _ R' e
    rw [e]
    refine (does_alloc _ _).bind ?_
    rintro f _ ⟨rfl, -⟩
    refine (ih _ (fun x hx => List.mem_cons_of_mem _ (h (by simp [SrcMem.needs, hx])))).bind ?_
    rintro it R1 ⟨hp, h2, h3⟩
    refine .perm hp ?_
    refine (does_copyKey _ _).bind ?_
    rintro k _ rfl
    refine (does_copyKey _ _).bind ?_
    rintro k2 _ rfl
    unfold vecTouchMem
    have hm : ∀ x ∈ (SrcMem.remove obj src vec rm up).needs, x ∈ (blk k2 [] ++ (blk k [] ++ (zs it.ids ++
        (f, []) :: R))).map Prod.fst := by
      intro x hx
      have := h hx
      unfold ids at this
      simp only [List.map_append, List.map_cons, List.mem_append, List.mem_cons]
      exact .inr (.inr (.inr (.inr this)))
    refine Does.bind (Q := fun _ R' => R' = blk k2 [] ++ (blk k [] ++ (zs it.ids ++ (f, []) :: R))) ?_ ?_
    · refine (does_touch (hm _ (by simp [SrcMem.needs]))).bind ?_
      intro _ R' e
      rw [e]
      exact does_touch (hm _ (by simp [SrcMem.needs]))
    rintro _ _ rfl
    refine (does_alloc _ _).bind ?_
    rintro e _ ⟨rfl, -⟩
    refine (does_alloc _ _).bind ?_
    rintro u _ ⟨rfl, -⟩
    refine .pure ⟨?_, ?_, nofun⟩
    · simp only [IterMem.ids, zs_cons, zs_append, zs_toList, filterMap_none, zs_nil]
      blocks
    · intro x hx
      simp only [IterMem.needs, SrcMem.needs, List.mem_append, List.mem_cons, map_fst_none] at hx ⊢
      rcases hx with ((hx | hx) | hx) | hx
      · exact .inl hx
      · exact .inr (.inr (.inr (.inr (.inl hx))))
      · exact .inr (.inr (.inr (.inr (.inl hx))))
      · exact .inr (.inr (.inr (.inr (.inr (h2 hx)))))

theorem does_other (o : Heap → Bool) (os : List (Nat × Option Nat)) (i : Nat) (G : List (Nat × Bytes))
    (h : os.map Prod.fst ⊆ ids G) :
    Does (otherMem o os i) (zs (os.filterMap Prod.snd) ++ G) fun os' R' =>
      R'.Perm (zs (os'.filterMap Prod.snd) ++ G) ∧ os'.map Prod.fst = os.map Prod.fst := by
  induction os generalizing i G with
  | nil => exact .pure ⟨List.Perm.refl _, rfl⟩
  | cons x os ih =>
    obtain ⟨p, it⟩ := x
    have hp : p ∈ ids G := h (by simp)
    cases i with
    | zero =>
      unfold otherMem
      cases it with
      | some q =>
        refine (does_touchAll (fun x hx => ?_)).bind ?_
        · simp only [List.mem_cons, List.not_mem_nil, or_false] at hx
          rcases hx with rfl | rfl
          · simp [hp]
          · simp
        · intro _ R' e
          rw [e]
          exact .pure ⟨List.Perm.refl _, rfl⟩
      | none =>
        simp only
        refine (does_openBase o [p] _ (fun x hx => ?_)).bind ?_
        · simp only [List.mem_cons, List.not_mem_nil, or_false] at hx
          subst hx
          simp [hp]
        · rintro it R' ⟨hp', -, -, rfl | ⟨q, rfl⟩⟩
          · exact .pure ⟨hp', rfl⟩
          · refine .pure ⟨hp'.trans ?_, rfl⟩
            simp [IterMem.ids]
    | succ i =>
      unfold otherMem
      have h' : os.map Prod.fst ⊆ ids (blk it [] ++ G) := by
        intro x hx
        simp [h (show x ∈ ((p, it) :: os).map Prod.fst from List.mem_cons_of_mem _ hx)]
      have e : (zs (((p, it) :: os).filterMap Prod.snd) ++ G).Perm (zs (os.filterMap Prod.snd) ++ (blk it [] ++ G)) := by
        cases it with
        | none => exact List.Perm.refl _
        | some q => simp only [List.filterMap_cons, zs_cons, blk]; blocks
      refine .perm e ?_
      refine (ih i _ h').bind ?_
      rintro os' R' ⟨hp', he⟩
      refine .pure ⟨hp'.trans ?_, by simp [he]⟩
      cases it with
      | none => exact List.Perm.refl _
      | some q => simp only [List.filterMap_cons, zs_cons, blk]; blocks

/-- Rearranging the blocks of an iterator. -/
macro "iblocks" : tactic => `(tactic| (
  simp only [IterMem.ids, IterMem.leaks, zs_cons, zs_append, zs_toList, zs_nil, blk, List.nil_append]
  blocks))

theorem does_act (o : Heap → Bool) (it : IterMem) (a : IterAct) (G : List (Nat × Bytes)) (h : it.needs ⊆ ids G) :
    Does (actMem o it a) (zs it.ids ++ G) fun it' R' => R'.Perm (zs it'.ids ++ G) ∧ it'.needs = it.needs ∧
      it'.leaks = it.leaks := by
  induction it generalizing a G with
  | null =>
    unfold actMem
    exact .pure ⟨List.Perm.refl _, rfl, rfl⟩
  | base n u =>
    unfold actMem
    refine (does_touchAll (fun x hx => ?_)).bind ?_
    · simp only [List.mem_cons] at hx
      rcases hx with rfl | hx
      · simp [IterMem.ids]
      · simp [h hx]
    · intro _ R' e
      rw [e]
      exact .pure ⟨List.Perm.refl _, rfl, rfl⟩
  | filter n u s w it ih =>
    unfold actMem
    refine (does_touchAll (fun x hx => ?_)).bind ?_
    · simp only [List.mem_cons] at hx
      rcases hx with rfl | rfl | rfl | hx
      · simp [IterMem.ids]
      · simp [IterMem.ids]
      · simp [IterMem.ids]
      · simp [h (show x ∈ (IterMem.filter n u s w it).needs from List.mem_append_left _ hx)]
    intro _ R' e
    rw [e]
    split
    · next a =>
      refine .perm (R' := zs it.ids ++ ((u, []) :: (s, []) :: (w, []) :: G)) (by iblocks) ?_
      refine (ih a _ (fun x hx => by
        simp [h (show x ∈ (IterMem.filter n u s w it).needs from List.mem_append_right _ hx)])).bind ?_
      rintro it' R2 ⟨hp, h2, h3⟩
      exact .pure ⟨hp.trans (by iblocks), by simp [IterMem.needs, h2], h3⟩
    · exact .pure ⟨List.Perm.refl _, rfl, rfl⟩
  | timeout n u s it ih =>
    unfold actMem
    refine (does_touchAll (fun x hx => ?_)).bind ?_
    · simp only [List.mem_cons] at hx
      rcases hx with rfl | rfl | hx
      · simp [IterMem.ids]
      · simp [IterMem.ids]
      · simp [h (show x ∈ (IterMem.timeout n u s it).needs from List.mem_append_left _ hx)]
    intro _ R' e
    rw [e]
    split
    · next a =>
      refine .perm (R' := zs it.ids ++ ((u, []) :: (s, []) :: G)) (by iblocks) ?_
      refine (ih a _ (fun x hx => by
        simp [h (show x ∈ (IterMem.timeout n u s it).needs from List.mem_append_right _ hx)])).bind ?_
      rintro it' R2 ⟨hp, h2, h3⟩
      exact .pure ⟨hp.trans (by iblocks), by simp [IterMem.needs, h2], h3⟩
    · exact .pure ⟨List.Perm.refl _, rfl, rfl⟩
  | ljoin n u s m l r ihl ihr =>
    unfold actMem
    refine (does_touchAll (fun x hx => ?_)).bind ?_
    · simp only [List.mem_cons] at hx
      rcases hx with rfl | rfl | hx
      · simp [IterMem.ids]
      · simp [IterMem.ids]
      · simp [h (show x ∈ (IterMem.ljoin n u s m l r).needs by simp [IterMem.needs, hx])]
    intro _ R' e
    rw [e]
    split
    · next a =>
      refine .perm (R' := zs l.ids ++ ((u, []) :: (s, []) :: (blk m [] ++ zs r.ids ++ G))) (by iblocks) ?_
      refine (ihl a _ (fun x hx => by
        simp [h (show x ∈ (IterMem.ljoin n u s m l r).needs by simp [IterMem.needs, hx])])).bind ?_
      rintro it' R2 ⟨hp, h2, h3⟩
      exact .pure ⟨hp.trans (by iblocks), by simp [IterMem.needs, h2], by simp [IterMem.leaks, h3]⟩
    · next a =>
      refine .perm (R' := zs r.ids ++ ((u, []) :: (s, []) :: (blk m [] ++ zs l.ids ++ G))) (by iblocks) ?_
      refine (ihr a _ (fun x hx => by
        simp [h (show x ∈ (IterMem.ljoin n u s m l r).needs by simp [IterMem.needs, hx])])).bind ?_
      rintro it' R2 ⟨hp, h2, h3⟩
      exact .pure ⟨hp.trans (by iblocks), by simp [IterMem.needs, h2], by simp [IterMem.leaks, h3]⟩
    · refine .perm (R' := blk m [] ++ ((u, []) :: (s, []) :: (zs l.ids ++ zs r.ids ++ G))) (by iblocks) ?_
      refine (does_free_blk _ _ _).bind ?_
      rintro _ _ rfl
      split
      · refine (does_alloc _ _).bind ?_
        rintro p _ ⟨rfl, -⟩
        exact .pure ⟨by iblocks, rfl, rfl⟩
      · exact .pure ⟨by iblocks, rfl, rfl⟩
    · exact .pure ⟨List.Perm.refl _, rfl, rfl⟩
  | remove n u s e k k2 os it ih =>
    unfold actMem
    refine (does_touchAll (fun x hx => ?_)).bind ?_
    · simp only [List.mem_cons] at hx
      rcases hx with rfl | rfl | rfl | hx
      · simp [IterMem.ids]
      · simp [IterMem.ids]
      · simp [IterMem.ids]
      · simp [h (show x ∈ (IterMem.remove n u s e k k2 os it).needs by simp [IterMem.needs, hx])]
    intro _ R' e'
    rw [e']
    split
    · next a =>
      refine .perm (R' := zs it.ids ++ ((u, []) :: (s, []) :: (e, []) :: (blk k [] ++ blk k2 [] ++
        zs (os.filterMap Prod.snd) ++ G))) (by iblocks) ?_
      refine (ih a _ (fun x hx => by
        simp [h (show x ∈ (IterMem.remove n u s e k k2 os it).needs by simp [IterMem.needs, hx])])).bind ?_
      rintro it' R2 ⟨hp, h2, h3⟩
      exact .pure ⟨hp.trans (by iblocks), by simp [IterMem.needs, h2], by simp [IterMem.leaks, h3]⟩
    · next i =>
      refine .perm (R' := zs (os.filterMap Prod.snd) ++ ((u, []) :: (s, []) :: (e, []) :: (blk k [] ++ blk k2 [] ++
        zs it.ids ++ G))) (by iblocks) ?_
      refine (does_other o os i _ (fun x hx => by
        simp [h (show x ∈ (IterMem.remove n u s e k k2 os it).needs by
          rw [IterMem.needs]; exact List.mem_append_left _ (List.mem_append_right _ hx))])).bind ?_
      rintro os' R2 ⟨hp, h2⟩
      exact .pure ⟨hp.trans (by iblocks), by simp [IterMem.needs, h2], rfl⟩
    · exact .pure ⟨List.Perm.refl _, rfl, rfl⟩

theorem does_destroyOthers (os : List (Nat × Option Nat)) (G : List (Nat × Bytes)) (h : os.map Prod.fst ⊆ ids G) :
    Does (destroyOthersMem os) (zs (os.filterMap Prod.snd) ++ G) fun _ R' => R' = G := by
  induction os with
  | nil => exact .pure rfl
  | cons x os ih =>
    obtain ⟨p, it⟩ := x
    have ih' := ih fun x hx => h (List.mem_cons_of_mem _ hx)
    unfold destroyOthersMem
    cases it with
    | none => exact ih'
    | some q =>
      refine (does_touchAll (fun x hx => ?_)).bind ?_
      · simp only [List.mem_cons, List.not_mem_nil, or_false] at hx
        subst hx
        simp [h (show x ∈ ((x, some q) :: os).map Prod.fst by simp)]
      · intro _ R' e
        rw [e]
        refine (does_free _ _ _).bind ?_
        rintro _ _ rfl
        exact ih'

theorem does_destroyIter (it : IterMem) (G : List (Nat × Bytes)) (h : it.needs ⊆ ids G) :
    Does (destroyIterMem it) (zs it.ids ++ G) fun _ R' => R'.Perm (zs it.leaks ++ G) := by
  induction it generalizing G with
  | null =>
    unfold destroyIterMem
    exact .pure (List.Perm.refl _)
  | base n u =>
    unfold destroyIterMem
    refine (does_touchAll (fun x hx => by simp [h hx])).bind ?_
    intro _ R' e
    rw [e]
    refine (does_free _ _ _).weaken ?_
    rintro _ _ rfl
    exact List.Perm.refl _
  | filter n u s w it ih =>
    unfold destroyIterMem
    refine (does_touchAll (fun x hx => by simp at hx; rcases hx with rfl | rfl <;> simp [IterMem.ids])).bind ?_
    intro _ R' e
    rw [e]
    refine .perm (R' := zs it.ids ++ ((w, []) :: (s, []) :: (u, []) :: G)) (by iblocks) ?_
    refine (ih _ (fun x hx => by
      simp [h (show x ∈ (IterMem.filter n u s w it).needs by simp [IterMem.needs, hx])])).bind ?_
    intro _ R1 hp
    refine .perm (hp.trans (show List.Perm _ ((w, []) :: (s, []) :: (u, []) :: (zs it.leaks ++ G)) by blocks)) ?_
    refine (does_free _ _ _).bind ?_
    rintro _ _ rfl
    refine (does_free _ _ _).bind ?_
    rintro _ _ rfl
    refine (does_free _ _ _).weaken ?_
    rintro _ _ rfl
    exact List.Perm.refl _
  | timeout n u s it ih =>
    unfold destroyIterMem
    refine (does_touchAll (fun x hx => by simp at hx; rcases hx with rfl | rfl <;> simp [IterMem.ids])).bind ?_
    intro _ R' e
    rw [e]
    refine .perm (R' := zs it.ids ++ ((s, []) :: (u, []) :: G)) (by iblocks) ?_
    refine (ih _ (fun x hx => by
      simp [h (show x ∈ (IterMem.timeout n u s it).needs by simp [IterMem.needs, hx])])).bind ?_
    intro _ R1 hp
    refine .perm (hp.trans (show List.Perm _ ((s, []) :: (u, []) :: (zs it.leaks ++ G)) by blocks)) ?_
    refine (does_free _ _ _).bind ?_
    rintro _ _ rfl
    refine (does_free _ _ _).weaken ?_
    rintro _ _ rfl
    exact List.Perm.refl _
  | ljoin n u s m l r ihl ihr =>
    unfold destroyIterMem
    refine (does_touchAll (fun x hx => by simp at hx; rcases hx with rfl | rfl <;> simp [IterMem.ids])).bind ?_
    intro _ R' e
    rw [e]
    refine .perm (R' := blk m [] ++ (zs l.ids ++ (zs r.ids ++ ((s, []) :: (u, []) :: G)))) (by iblocks) ?_
    refine (does_free_blk _ _ _).bind ?_
    rintro _ _ rfl
    refine (ihl _ (fun x hx => by
      simp [h (show x ∈ (IterMem.ljoin n u s m l r).needs by simp [IterMem.needs, hx])])).bind ?_
    intro _ R1 hp
    refine .perm (hp.trans (show List.Perm _ (zs r.ids ++ (zs l.leaks ++ ((s, []) :: (u, []) :: G))) by blocks)) ?_
    refine (ihr _ (fun x hx => by
      simp [h (show x ∈ (IterMem.ljoin n u s m l r).needs by simp [IterMem.needs, hx])])).bind ?_
    intro _ R1 hp
    refine .perm (hp.trans (show List.Perm _ ((s, []) :: (u, []) :: (zs l.leaks ++ zs r.leaks ++ G)) by blocks)) ?_
    refine (does_free _ _ _).bind ?_
    rintro _ _ rfl
    refine (does_free _ _ _).weaken ?_
    rintro _ _ rfl
    simp [IterMem.leaks]
  | remove n u s e k k2 os it ih =>
    unfold destroyIterMem
    refine (does_touchAll (fun x hx => by simp at hx; rcases hx with rfl | rfl <;> simp [IterMem.ids])).bind ?_
    intro _ R' e'
    rw [e']
    refine .perm (R' := zs it.ids ++ (zs (os.filterMap Prod.snd) ++ ((e, []) :: (s, []) :: (u, []) ::
      (blk k [] ++ blk k2 [] ++ G)))) (by iblocks) ?_
    refine (ih _ (fun x hx => by
      simp [h (show x ∈ (IterMem.remove n u s e k k2 os it).needs by simp [IterMem.needs, hx])])).bind ?_
    intro _ R1 hp
    refine .perm (hp.trans (show List.Perm _ (zs (os.filterMap Prod.snd) ++ ((e, []) :: (s, []) :: (u, []) ::
      (blk k [] ++ blk k2 [] ++ zs it.leaks ++ G))) by blocks)) ?_
    refine (does_touchAll (fun x hx => by simp at hx; subst hx; simp)).bind ?_
    intro _ R' e'
    rw [e']
    refine (does_destroyOthers os _ (fun x hx => by
        simp [h (show x ∈ (IterMem.remove n u s e k k2 os it).needs by
          rw [IterMem.needs]; exact List.mem_append_left _ (List.mem_append_right _ hx))])).bind ?_
    rintro _ _ rfl
    refine (does_free _ _ _).bind ?_
    rintro _ _ rfl
    refine (does_free _ _ _).bind ?_
    rintro _ _ rfl
    refine (does_free _ _ _).weaken ?_
    rintro _ _ rfl
    simp [IterMem.leaks]

/-! ## Stages -/

/-- The blocks of a stage, if there is one. -/
def sids : Option StageMem → List Nat
  | none => []
  | some s => [s.obj, s.src]

/-- The blocks of a removal stage, if there is one. -/
def rids : Option RemoveMem → List Nat
  | none => []
  | some r => [r.obj, r.src, r.vec.self, r.vec.arr]

/-- The blocks of a vector, if there is one. -/
def vids : Option VecMem → List Nat
  | none => []
  | some v => [v.self, v.arr]

@[simp] theorem zs_vids (v : Option VecMem) : zs (vids v) = vblk v := by cases v <;> rfl

theorem does_stageInit (R : List (Nat × Bytes)) :
    Does stageInitMem R fun s R' => R'.Perm (zs (sids (some s)) ++ R) := by
  unfold stageInitMem
  refine (does_alloc _ _).bind ?_
  rintro o _ ⟨rfl, -⟩
  refine (does_alloc _ _).bind ?_
  rintro p _ ⟨rfl, -⟩
  refine .pure ?_
  simp only [sids, zs_cons, zs_nil]
  blocks

theorem does_stageDestroy (s : Option StageMem) (R : List (Nat × Bytes)) :
    Does (stageDestroyMem s) (zs (sids s) ++ R) fun _ R' => R' = R := by
  cases s with
  | none => exact .pure rfl
  | some s =>
    unfold stageDestroyMem
    refine (does_touch (by simp [sids])).bind ?_
    intro _ R' e
    rw [e]
    refine .perm (R' := (s.src, []) :: (s.obj, []) :: R) (by simp only [sids, zs_cons, zs_nil]; blocks) ?_
    refine (does_free _ _ _).bind ?_
    rintro _ _ rfl
    exact does_free _ _ _

theorem does_removeInit (R : List (Nat × Bytes)) :
    Does removeInitMem R fun r R' => R'.Perm (zs (rids (some r)) ++ R) ∧ r.rm = [] := by
  unfold removeInitMem
  refine (does_alloc _ _).bind ?_
  rintro o _ ⟨rfl, -⟩
  refine (does_vecInit _).bind ?_
  intro v R1 hp
  refine (does_alloc _ _).bind ?_
  rintro p _ ⟨rfl, -⟩
  refine .pure ⟨(hp.cons _).trans ?_, rfl⟩
  simp only [rids, zs_cons, zs_nil, VecMem.own]
  blocks

theorem does_removeDestroy (r : Option RemoveMem) (R : List (Nat × Bytes)) :
    Does (removeDestroyMem r) (zs (rids r) ++ R) fun _ R' => R' = R := by
  cases r with
  | none => exact .pure rfl
  | some r =>
    unfold removeDestroyMem
    refine (does_touch (by simp [rids])).bind ?_
    intro _ R' e
    rw [e]
    refine .perm (R' := vblk (some r.vec) ++ ((r.src, []) :: (r.obj, []) :: R))
      (by simp only [rids, zs_cons, zs_nil, vblk, VecMem.own]; blocks) ?_
    refine (does_vecDestroy _ _).bind ?_
    rintro _ _ rfl
    refine (does_free _ _ _).bind ?_
    rintro _ _ rfl
    exact does_free _ _ _

/-! ## Query iterators -/

/-- What a query iterator owns, apart from the iterators of mtbl. -/
def QIterMem.objs (it : QIterMem) : List Nat :=
  it.self :: (sids it.ljoin ++ it.fsFilter.toList ++ it.fsNoMerge.toList ++ it.fillMerger.toList ++ sids it.timeout ++
    sids it.timeoutIndex ++ sids (it.filters .filterSingleLabel) ++ sids (it.filters .filterRrtype) ++
    sids (it.filters .filterBailiwick) ++ sids (it.filters .filterTimePrefilter) ++ sids (it.filters .filterTime) ++
    sids (it.filters .filterOffset) ++ rids it.removeStrict ++ vids it.key ++ vids it.key2)

/-- All a query iterator owns. -/
def QIterMem.all (it : QIterMem) : List Nat := it.objs ++ it.mIter.ids ++ it.mIter2.ids

theorem does_queryIterFree (it : QIterMem) (G : List (Nat × Bytes)) (h1 : it.mIter.needs ⊆ it.objs ++ ids G)
    (h2 : it.mIter2.needs ⊆ it.objs ++ ids G) :
    Does (queryIterFreeMem it) (zs it.all ++ G) fun _ R' =>
      R'.Perm (zs (it.mIter.leaks ++ it.mIter2.leaks) ++ G) := by
  unfold queryIterFreeMem
  refine (does_touch (by simp [QIterMem.all, QIterMem.objs])).bind ?_
  intro _ R' e
  rw [e]
  refine .perm (R' := zs it.mIter.ids ++ (zs it.mIter2.ids ++ (zs it.objs ++ G))) (by
    simp only [QIterMem.all, zs_append]; blocks) ?_
  refine (does_destroyIter _ _ (fun x hx => ?_)).bind ?_
  · have := h1 hx
    simp only [List.mem_append] at this
    simp only [ids_append, ids_zs, List.mem_append]
    exact .inr this
  intro _ R1 hp
  refine .perm (hp.trans (show List.Perm _ (zs it.mIter2.ids ++ (zs it.objs ++ (zs it.mIter.leaks ++ G))) by blocks)) ?_
  refine (does_destroyIter _ _ (fun x hx => ?_)).bind ?_
  · have := h2 hx
    simp only [List.mem_append] at this
    simp only [ids_append, ids_zs, List.mem_append]
    rcases this with h | h
    · exact .inl h
    · exact .inr (.inr h)
  intro _ R2 hp
  refine .perm (hp.trans (show List.Perm _ (zs (sids it.ljoin) ++ (blk it.fsFilter [] ++ (blk it.fsNoMerge [] ++
    (blk it.fillMerger [] ++ (zs (sids it.timeout) ++ (zs (sids it.timeoutIndex) ++
    (zs (sids (it.filters .filterSingleLabel)) ++ (zs (sids (it.filters .filterRrtype)) ++
    (zs (sids (it.filters .filterBailiwick)) ++ (zs (sids (it.filters .filterTimePrefilter)) ++
    (zs (sids (it.filters .filterTime)) ++ (zs (sids (it.filters .filterOffset)) ++ (zs (rids it.removeStrict) ++
    (vblk it.key ++ (vblk it.key2 ++ ((it.self, []) :: (zs (it.mIter.leaks ++ it.mIter2.leaks) ++
    G))))))))))))))))) by
      simp only [QIterMem.objs, zs_append, zs_cons, zs_toList, zs_vids]; blocks)) ?_
  refine (does_stageDestroy _ _).bind ?_
  rintro _ _ rfl
  refine (does_free_blk _ _ _).bind ?_
  rintro _ _ rfl
  refine (does_free_blk _ _ _).bind ?_
  rintro _ _ rfl
  refine (does_free_blk _ _ _).bind ?_
  rintro _ _ rfl
  refine (does_stageDestroy _ _).bind ?_
  rintro _ _ rfl
  refine (does_stageDestroy _ _).bind ?_
  rintro _ _ rfl
  refine (does_stageDestroy _ _).bind ?_
  rintro _ _ rfl
  refine (does_stageDestroy _ _).bind ?_
  rintro _ _ rfl
  refine (does_stageDestroy _ _).bind ?_
  rintro _ _ rfl
  refine (does_stageDestroy _ _).bind ?_
  rintro _ _ rfl
  refine (does_stageDestroy _ _).bind ?_
  rintro _ _ rfl
  refine (does_stageDestroy _ _).bind ?_
  rintro _ _ rfl
  refine (does_removeDestroy _ _).bind ?_
  rintro _ _ rfl
  refine (does_vecDestroy _ _).bind ?_
  rintro _ _ rfl
  refine (does_vecDestroy _ _).bind ?_
  rintro _ _ rfl
  refine (does_free _ _ _).weaken ?_
  rintro _ _ rfl
  exact List.Perm.refl _

end Verif
