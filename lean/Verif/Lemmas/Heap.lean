import Verif.Model.Heap

/-! Reasoning about the heap: which blocks are live, up to order. -/

namespace Verif

/-- Block numbers are distinct and below the next one. -/
structure Heap.Sane (h : Heap) : Prop where
  nodup : (h.live.map Prod.fst).Nodup
  below : ∀ b ∈ h.live, b.1 < h.next

/-- The live blocks are exactly those of the list. -/
structure Owned (h : Heap) (R : List (Nat × Bytes)) : Prop where
  sane : h.Sane
  perm : h.live.Perm R

theorem Owned.mono {h : Heap} {R R' : List (Nat × Bytes)} (H : Owned h R) (p : R.Perm R') : Owned h R' :=
  ⟨H.sane, H.perm.trans p⟩

/-- `x`, started with the blocks `R`, succeeds and ends with blocks as `Q` says. -/
def Does {α : Type} (x : Mem α) (R : List (Nat × Bytes)) (Q : α → List (Nat × Bytes) → Prop) : Prop :=
  ∀ h, Owned h R → ∃ a h' R', x h = .ok (a, h') ∧ Owned h' R' ∧ Q a R'

theorem Does.bind {α β : Type} {x : Mem α} {f : α → Mem β} {R : List (Nat × Bytes)}
    {Q : α → List (Nat × Bytes) → Prop} {Q' : β → List (Nat × Bytes) → Prop}
    (hx : Does x R Q) (hf : ∀ a R', Q a R' → Does (f a) R' Q') : Does (x >>= f) R Q' := by
  intro h H
  obtain ⟨a, h1, R1, e1, H1, q1⟩ := hx h H
  obtain ⟨b, h2, R2, e2, H2, q2⟩ := hf a R1 q1 h1 H1
  refine ⟨b, h2, R2, ?_, H2, q2⟩
  show (x h >>= fun p => f p.1 p.2) = _
  rw [e1]
  exact e2

theorem Does.pure {α : Type} {a : α} {R : List (Nat × Bytes)} {Q : α → List (Nat × Bytes) → Prop}
    (hq : Q a R) : Does (pure a) R Q := fun h H => ⟨a, h, R, rfl, H, hq⟩

theorem Does.mPure {α : Type} {x : Out α} {a : α} {R : List (Nat × Bytes)} {Q : α → List (Nat × Bytes) → Prop}
    (hx : x = .ok a) (hq : Q a R) : Does (mPure x) R Q := fun h H => ⟨a, h, R, by rw [hx]; rfl, H, hq⟩

theorem Does.perm {α : Type} {x : Mem α} {R R' : List (Nat × Bytes)} {Q : α → List (Nat × Bytes) → Prop}
    (hp : R.Perm R') (hx : Does x R' Q) : Does x R Q := fun h H => hx h (H.mono hp)

theorem Does.weaken {α : Type} {x : Mem α} {R : List (Nat × Bytes)} {Q Q' : α → List (Nat × Bytes) → Prop}
    (hx : Does x R Q) (hq : ∀ a R', Q a R' → Q' a R') : Does x R Q' := by
  intro h H
  obtain ⟨a, h', R', e, H', q⟩ := hx h H
  exact ⟨a, h', R', e, H', hq a R' q⟩

theorem does_alloc (b : Bytes) (R : List (Nat × Bytes)) :
    Does (mAlloc b) R fun p R' => R' = (p, b) :: R ∧ p ∉ R.map Prod.fst := by
  intro h H
  have hn : h.next ∉ h.live.map Prod.fst := by
    intro hm
    obtain ⟨b, hb, e⟩ := List.mem_map.1 hm
    have := H.sane.below b hb
    omega
  refine ⟨h.next, _, _, rfl, ⟨⟨?_, ?_⟩, ?_⟩, rfl, ?_⟩
  · simp only [List.map_cons, List.nodup_cons]
    exact ⟨hn, H.sane.nodup⟩
  · intro x hx
    rcases List.mem_cons.1 hx with rfl | hx
    · simp
    · have := H.sane.below x hx
      simp only; omega
  · exact H.perm.cons _
  · intro hm
    exact hn ((H.perm.map Prod.fst).mem_iff.2 hm)

private theorem filter_ne_self {l : List (Nat × Bytes)} {p : Nat} (h : p ∉ l.map Prod.fst) :
    l.filter (fun b => b.1 ≠ p) = l := by
  rw [List.filter_eq_self]
  intro b hb
  simp only [ne_eq, decide_not, Bool.not_eq_true', decide_eq_false_iff_not]
  intro e
  exact h (List.mem_map.2 ⟨b, hb, e⟩)

theorem does_free (p : Nat) (b : Bytes) (R : List (Nat × Bytes)) :
    Does (mFree (some p)) ((p, b) :: R) fun _ R' => R' = R := by
  intro h H
  have hm : p ∈ h.live.map Prod.fst := (H.perm.map Prod.fst).mem_iff.2 (by simp)
  have nd : (((p, b) :: R).map Prod.fst).Nodup := (H.perm.map Prod.fst).nodup_iff.1 H.sane.nodup
  simp only [List.map_cons, List.nodup_cons] at nd
  refine ⟨(), _, R, by rw [mFree, if_pos hm], ⟨⟨?_, ?_⟩, ?_⟩, rfl⟩
  · exact (List.Sublist.map _ List.filter_sublist).nodup H.sane.nodup
  · intro x hx
    exact H.sane.below x (List.mem_filter.1 hx).1
  · have := H.perm.filter (fun b => b.1 ≠ p)
    rw [List.filter_cons_of_neg (by simp), filter_ne_self nd.1] at this
    exact this

theorem does_free_none (R : List (Nat × Bytes)) : Does (mFree none) R fun _ R' => R' = R :=
  fun h H => ⟨(), h, R, rfl, H, rfl⟩

theorem lookup_of_mem {l : List (Nat × Bytes)} {p : Nat} {b : Bytes} (nd : (l.map Prod.fst).Nodup)
    (h : (p, b) ∈ l) : l.lookup p = some b := by
  induction l with
  | nil => simp at h
  | cons x l ih =>
    obtain ⟨k, c⟩ := x
    simp only [List.map_cons, List.nodup_cons] at nd
    rcases List.mem_cons.1 h with e | hm
    · cases e; simp [List.lookup]
    · have hk : p ≠ k := by
        rintro rfl
        exact nd.1 (List.mem_map.2 ⟨(p, b), hm, rfl⟩)
      rw [List.lookup_cons, beq_eq_false_iff_ne.2 hk]
      exact ih nd.2 hm

theorem load_of_owned {h : Heap} {R : List (Nat × Bytes)} (H : Owned h R) {p : Nat} {b : Bytes} (hb : (p, b) ∈ R) :
    mLoad p h = .ok (b, h) := by
  rw [mLoad, lookup_of_mem H.sane.nodup (H.perm.mem_iff.2 hb)]

theorem load_of_not_mem {h : Heap} {R : List (Nat × Bytes)} (H : Owned h R) {p : Nat} (hp : p ∉ R.map Prod.fst) :
    mLoad p h = .fault .useAfterFree := by
  rw [mLoad]
  split
  · next b e =>
    exfalso
    apply hp
    refine (H.perm.map Prod.fst).mem_iff.1 ?_
    clear H hp
    revert e
    induction h.live with
    | nil => intro e; cases e
    | cons x l ih =>
      obtain ⟨k, c⟩ := x
      intro e
      rw [List.lookup_cons] at e
      by_cases hk : p = k
      · subst hk; simp
      · rw [beq_eq_false_iff_ne.2 hk] at e
        exact List.mem_cons_of_mem _ (ih e)
  · rfl

theorem does_touch {p : Nat} {R : List (Nat × Bytes)} (hp : p ∈ R.map Prod.fst) :
    Does (mTouch p) R fun _ R' => R' = R := by
  intro h H
  obtain ⟨⟨k, b⟩, hb, rfl⟩ := List.mem_map.1 hp
  refine ⟨(), h, R, ?_, H, rfl⟩
  show (mLoad k h >>= fun x => Out.ok ((), x.2)) = _
  rw [load_of_owned H hb]
  rfl

/-- The block, if any. -/
def blk (p : Option Nat) (b : Bytes) : List (Nat × Bytes) :=
  match p with
  | none => []
  | some p => [(p, b)]

theorem does_free_blk (p : Option Nat) (b : Bytes) (R : List (Nat × Bytes)) :
    Does (mFree p) (blk p b ++ R) fun _ R' => R' = R := by
  cases p with
  | none => exact does_free_none R
  | some p => exact does_free p b R

/-- Bring a block to the front, by counting. -/
macro "blocks" : tactic => `(tactic| (
  refine List.perm_iff_count.2 fun _ => ?_
  simp only [List.count_append, List.count_cons, List.count_nil]
  try omega))

end Verif
