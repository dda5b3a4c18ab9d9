import Verif.Spec.PtrHeap

/-!
# Lemmas on the heap of pointers
-/

namespace Verif.PtrHeap

open Verif.Spec

variable {α : Type}

theorem value_ok {v : List α} {i : Nat} {x : α} (h : v[i]? = some x) : value v i = .ok x := by rw [value, h]

theorem poke_ok {v : List α} {i : Nat} (h : i < v.length) (x : α) : poke v i x = .ok (v.set i x) := if_pos h

theorem lookup {v : List α} {i : Nat} (h : i < v.length) : ∃ x, v[i]? = some x := ⟨v[i], List.getElem?_eq_getElem h⟩

theorem lookup_set {u : List α} {i j : Nat} {a : α} (hi : i < u.length) :
    (u.set i a)[j]? = if j = i then some a else u[j]? := by
  rw [List.getElem?_set]
  split
  · rename_i h; subst h; simp [hi]
  · rename_i h; rw [if_neg (Ne.symm h)]

theorem lookup_swap {u : List α} {i j k : Nat} {a b : α} (hi : i < u.length) (hj : j < u.length) :
    ((u.set i a).set j b)[k]? = if k = j then some b else if k = i then some a else u[k]? := by
  rw [lookup_set (by simpa using hj), lookup_set hi]

/-- Exchanging two items. -/
theorem swap_perm {u : List α} {i j : Nat} {a b : α} (hij : i ≠ j) (hb : u[i]? = some b) (ha : u[j]? = some a) :
    ((u.set i a).set j b).Perm u := by
  obtain ⟨hi, rfl⟩ := List.getElem?_eq_some_iff.1 hb
  obtain ⟨hj, rfl⟩ := List.getElem?_eq_some_iff.1 ha
  have := Array.swap_perm (xs := u.toArray) (i := i) (j := j) (by simpa using hi) (by simpa using hj)
  rw [Array.perm_iff_toList_perm] at this
  simpa [Array.swap] using this

/-- `i` is a child of `p`. -/
def Child (p i : Nat) : Prop := i = 2 * p + 1 ∨ i = 2 * p + 2

/-- The item at `i` is not before the one at `p`. -/
def Edge (cmp : α → α → Int) (u : List α) (p i : Nat) : Prop := ∀ x y, u[p]? = some x → u[i]? = some y → ¬ cmp y x < 0

/-- The part of the vector whose parents are from `s` on is in heap order. -/
def Tidy (cmp : α → α → Int) (s : Nat) (u : List α) : Prop := ∀ p i, Child p i → s ≤ p → Edge cmp u p i

/-- Position `pos` is in the subtree of `s`. -/
inductive Desc (s : Nat) : Nat → Prop where
  | refl : Desc s s
  | child {p i} : Desc s p → Child p i → Desc s i

theorem Desc.le {s p : Nat} (h : Desc s p) : s ≤ p := by
  induction h with
  | refl => exact Nat.le_refl _
  | child _ hc ih => rcases hc with rfl | rfl <;> omega

theorem Desc.parent {s i : Nat} (h : Desc s i) (hi : s < i) : Desc s ((i - 1) / 2) ∧ Child ((i - 1) / 2) i := by
  cases h with
  | refl => omega
  | child h hc =>
    rename_i p
    have : (i - 1) / 2 = p := by rcases hc with rfl | rfl <;> omega
    rw [this]; exact ⟨h, hc⟩

theorem Desc.zero (i : Nat) : Desc 0 i := by
  induction i using Nat.strongRecOn with
  | ind i ih =>
    cases i with
    | zero => exact .refl
    | succ i =>
      refine (ih (i / 2) (by omega)).child ?_
      unfold Child; omega

/-- Heap order except between `pos` and its parent. -/
structure Rising (cmp : α → α → Int) (s pos : Nat) (u : List α) : Prop where
  other : ∀ p i, Child p i → s ≤ p → i ≠ pos → Edge cmp u p i
  across : ∀ p c, Child p pos → s ≤ p → Child pos c → Edge cmp u p c

theorem edge_of_lookup {cmp : α → α → Int} {u u' : List α} {p i p' i' : Nat} (h : Edge cmp u p i) (hp : u'[p']? = u[p]?)
    (hi : u'[i']? = u[i]?) : Edge cmp u' p' i' := by
  intro x y hx hy
  exact h x y (hp ▸ hx) (hi ▸ hy)

theorem Rising.step {cmp : α → α → Int} (ho : Orders cmp) {s pos pp : Nat} {u : List α} (h : Rising cmp s pos u)
    (hc : Child pp pos) (hs : s ≤ pp) {new par : α} (hn : u[pos]? = some new) (hp : u[pp]? = some par) (hl : cmp new par < 0) :
    Rising cmp s pp ((u.set pos par).set pp new) := by
  have hpos : pos < u.length := (List.getElem?_eq_some_iff.1 hn).1
  have hpp : pp < u.length := (List.getElem?_eq_some_iff.1 hp).1
  have hne : pos ≠ pp := by unfold Child at hc; omega
  have at_pp : ((u.set pos par).set pp new)[pp]? = some new := by rw [lookup_swap hpos hpp, if_pos rfl]
  have at_pos : ((u.set pos par).set pp new)[pos]? = some par := by rw [lookup_swap hpos hpp, if_neg hne, if_pos rfl]
  have at_k : ∀ k, k ≠ pos → k ≠ pp → ((u.set pos par).set pp new)[k]? = u[k]? := by
    intro k h1 h2; rw [lookup_swap hpos hpp, if_neg h2, if_neg h1]
  constructor
  · intro p i hpi hsp hi
    by_cases hip : i = pos
    · subst hip
      have : p = pp := by unfold Child at hpi hc; omega
      subst this
      intro x y hx hy
      rw [at_pp] at hx; rw [at_pos] at hy
      cases hx; cases hy
      exact ho.asymm _ _ hl
    · by_cases h1 : p = pp
      · subst h1
        intro x y hx hy
        rw [at_pp] at hx; rw [at_k i hip hi] at hy
        cases hx
        exact ho.trans _ _ _ (ho.asymm _ _ hl) (h.other p i hpi hsp hip _ _ hp hy)
      · by_cases h2 : p = pos
        · subst h2
          intro x y hx hy
          rw [at_pos] at hx; rw [at_k i hip hi] at hy
          cases hx
          exact h.across pp i hc hs hpi _ _ hp hy
        · exact edge_of_lookup (h.other p i hpi hsp hip) (at_k p h2 h1) (at_k i hip hi)
  · intro g c hg hsg hgc
    have hgp : g ≠ pos ∧ g ≠ pp := by unfold Child at hc hg; omega
    have hgpp : Edge cmp u g pp := h.other g pp hg hsg (Ne.symm hne)
    by_cases hcp : c = pos
    · subst hcp
      exact edge_of_lookup hgpp (at_k g hgp.1 hgp.2) (at_pos.trans hp.symm)
    · have hcpp : c ≠ pp := by unfold Child at hgc; omega
      intro x y hx hy
      rw [at_k g hgp.1 hgp.2] at hx; rw [at_k c hcp hcpp] at hy
      exact ho.trans _ _ _ (hgpp _ _ hx hp) (h.other pp c hgc hs hcp _ _ hp hy)

theorem siftdownLoop_spec (cmp : α → α → Int) (s : Nat) (new : α) : ∀ (fuel : Nat) (v : List α) (pos : Nat), pos < fuel →
    pos < v.length → ∃ w, siftdownLoop cmp s new fuel v pos = .ok w ∧ w.Perm (v.set pos new) ∧
      (Orders cmp → Desc s pos → Rising cmp s pos (v.set pos new) → Tidy cmp s w) := by
  intro fuel
  induction fuel with
  | zero => intro v pos h; omega
  | succ fuel ih =>
    intro v pos hf hp
    have stop : (Orders cmp → Desc s pos → Rising cmp s pos (v.set pos new) → Tidy cmp s (v.set pos new)) →
        ∃ w, poke v pos new = .ok w ∧ w.Perm (v.set pos new) ∧
          (Orders cmp → Desc s pos → Rising cmp s pos (v.set pos new) → Tidy cmp s w) :=
      fun h => ⟨_, poke_ok hp new, .refl _, h⟩
    by_cases hs : pos > s
    · have e : siftdownLoop cmp s new (fuel + 1) v pos = _ := if_pos hs
      rw [e]
      obtain ⟨par, hpar⟩ := lookup (v := v) (i := (pos - 1) / 2) (by omega)
      have hne : pos ≠ (pos - 1) / 2 := by omega
      have hupar : (v.set pos new)[(pos - 1) / 2]? = some par := by rw [lookup_set hp, if_neg (Ne.symm hne)]; exact hpar
      have hun : (v.set pos new)[pos]? = some new := by rw [lookup_set hp, if_pos rfl]
      simp only [value_ok hpar, Out.ok_bind]
      by_cases hl : less cmp new par = true
      · rw [if_pos hl, poke_ok hp, Out.ok_bind]
        obtain ⟨w, hw, hperm, ht⟩ := ih (v.set pos par) ((pos - 1) / 2) (by omega) (by rw [List.length_set]; omega)
        have e2 : (v.set pos par).set ((pos - 1) / 2) new = ((v.set pos new).set pos par).set ((pos - 1) / 2) new := by
          rw [List.set_set]
        rw [e2] at hperm ht
        refine ⟨w, hw, hperm.trans (swap_perm hne hun hupar), fun ho hd hr => ?_⟩
        obtain ⟨hd', hc⟩ := hd.parent hs
        exact ht ho hd' (hr.step ho hc hd'.le hun hupar (by simpa [less] using hl))
      · rw [if_neg hl]
        refine stop fun ho hd hr p i hpi hsp => ?_
        by_cases hi : i = pos
        · subst hi
          have : p = (i - 1) / 2 := by unfold Child at hpi; omega
          subst this
          intro x y hx hy
          rw [hupar] at hx; rw [hun] at hy
          cases hx; cases hy
          simpa [less] using hl
        · exact hr.other p i hpi hsp hi
    · have e : siftdownLoop cmp s new (fuel + 1) v pos = _ := if_neg hs
      rw [e]
      refine stop fun ho hd hr p i hpi hsp => hr.other p i hpi hsp ?_
      have := hd.le
      unfold Child at hpi; omega

theorem siftdown_spec (cmp : α → α → Int) (v : List α) (s pos : Nat) (hp : pos < v.length) :
    ∃ w, siftdown cmp v s pos = .ok w ∧ w.Perm v ∧ (Orders cmp → Desc s pos → Rising cmp s pos v → Tidy cmp s w) := by
  obtain ⟨new, hn⟩ := lookup hp
  obtain ⟨w, hw, hperm, ht⟩ := siftdownLoop_spec cmp s new (pos + 1) v pos (by omega) hp
  have e : v.set pos new = v := by
    obtain ⟨_, rfl⟩ := List.getElem?_eq_some_iff.1 hn
    exact List.set_getElem_self _
  rw [e] at hperm ht
  exact ⟨w, by rw [siftdown, value_ok hn, Out.ok_bind, hw], hperm, ht⟩

/-- Heap order except around `pos`. -/
structure Sinking (cmp : α → α → Int) (s pos : Nat) (u : List α) : Prop where
  other : ∀ p i, Child p i → s ≤ p → p ≠ pos → i ≠ pos → Edge cmp u p i
  across : ∀ p c, Child p pos → s ≤ p → Child pos c → Edge cmp u p c

theorem Sinking.step {cmp : α → α → Int} {s pos c : Nat} {u : List α} (h : Sinking cmp s pos u) (hs : s ≤ pos)
    (hc : Child pos c) {new x : α} (hn : u[pos]? = some new) (hx : u[c]? = some x)
    (hleast : ∀ d, Child pos d → d ≠ c → Edge cmp u c d) :
    Sinking cmp s c ((u.set pos x).set c new) := by
  have hpos : pos < u.length := (List.getElem?_eq_some_iff.1 hn).1
  have hcl : c < u.length := (List.getElem?_eq_some_iff.1 hx).1
  have hne : pos ≠ c := by unfold Child at hc; omega
  have at_pos : ((u.set pos x).set c new)[pos]? = u[c]? := by rw [lookup_swap hpos hcl, if_neg hne, if_pos rfl, hx]
  have at_k : ∀ k, k ≠ pos → k ≠ c → ((u.set pos x).set c new)[k]? = u[k]? := by
    intro k h1 h2; rw [lookup_swap hpos hcl, if_neg h2, if_neg h1]
  constructor
  · intro p i hpi hsp hp hi
    by_cases h1 : p = pos
    · subst h1
      exact edge_of_lookup (hleast i hpi hi) at_pos (at_k i (by unfold Child at hpi; omega) hi)
    · by_cases h2 : i = pos
      · subst h2
        exact edge_of_lookup (h.across p c hpi hsp hc) (at_k p h1 hp) at_pos
      · exact edge_of_lookup (h.other p i hpi hsp h1 h2) (at_k p h1 hp) (at_k i h2 hi)
  · intro p d hpc hsp hcd
    have : p = pos := by unfold Child at hpc hc; omega
    subst this
    exact edge_of_lookup (h.other c d hcd (by unfold Child at hc; omega) (Ne.symm hne) (by unfold Child at hcd hc; omega)) at_pos
      (at_k d (by unfold Child at hcd hc; omega) (by unfold Child at hcd; omega))

theorem Sinking.leaf {cmp : α → α → Int} {s pos : Nat} {u : List α} (h : Sinking cmp s pos u) (hl : ¬ 2 * pos + 1 < u.length) :
    Rising cmp s pos u := by
  refine ⟨fun p i hpi hsp hi => ?_, h.across⟩
  by_cases hp : p = pos
  · intro x y _ hy
    have := (List.getElem?_eq_some_iff.1 hy).1
    unfold Child at hpi; omega
  · exact h.other p i hpi hsp hp hi

theorem siftupLoop_spec (cmp : α → α → Int) (s : Nat) (new : α) : ∀ (fuel : Nat) (v : List α) (pos : Nat), v.length < fuel + pos →
    pos < v.length → ∃ w q, siftupLoop cmp new fuel v pos = .ok (w, q) ∧ q < w.length ∧ w.Perm (v.set pos new) ∧
      (Desc s pos → Desc s q) ∧
      (Orders cmp → Desc s pos → Sinking cmp s pos (v.set pos new) → Rising cmp s q w) := by
  intro fuel
  induction fuel with
  | zero => intro v pos h; omega
  | succ fuel ih =>
    intro v pos hf hp
    by_cases hc : 2 * pos + 1 < v.length
    · have e : siftupLoop cmp new (fuel + 1) v pos = _ := if_pos hc
      rw [e]
      obtain ⟨l, hl⟩ := lookup hc
      have hun : (v.set pos new)[pos]? = some new := by rw [lookup_set hp, if_pos rfl]
      have huk : ∀ k, k ≠ pos → (v.set pos new)[k]? = v[k]? := fun k hk => by rw [lookup_set hp, if_neg hk]
      -- the rest, for the child chosen
      have rest : ∀ c x, Child pos c → v[c]? = some x →
          (Orders cmp → ∀ d, Child pos d → d ≠ c → Edge cmp (v.set pos new) c d) →
          ∃ w q, (poke v pos x >>= fun v => siftupLoop cmp new fuel v c) = .ok (w, q) ∧ q < w.length ∧ w.Perm (v.set pos new) ∧
            (Desc s pos → Desc s q) ∧
            (Orders cmp → Desc s pos → Sinking cmp s pos (v.set pos new) → Rising cmp s q w) := by
        intro c x hpc hx hleast
        have hcl : c < v.length := (List.getElem?_eq_some_iff.1 hx).1
        have hne : pos ≠ c := by unfold Child at hpc; omega
        obtain ⟨w, q, hw, hq, hperm, hd, hr⟩ := ih (v.set pos x) c (by rw [List.length_set]; unfold Child at hpc; omega)
          (by rw [List.length_set]; exact hcl)
        have e2 : (v.set pos x).set c new = ((v.set pos new).set pos x).set c new := by rw [List.set_set]
        rw [e2] at hperm hr
        have hux : (v.set pos new)[c]? = some x := (huk c (Ne.symm hne)).trans hx
        refine ⟨w, q, by rw [poke_ok hp, Out.ok_bind, hw], hq, hperm.trans (swap_perm hne hun hux), fun h => hd (h.child hpc),
          fun ho h hsk => hr ho (h.child hpc) (hsk.step h.le hpc hun hux (hleast ho))⟩
      by_cases hr : 2 * pos + 1 + 1 < v.length
      · obtain ⟨r, hr'⟩ := lookup hr
        simp only [if_pos hr, value_ok hl, value_ok hr', Out.ok_bind]
        by_cases hlt : less cmp l r = true
        · simp only [hlt, if_true, value_ok hl, Out.ok_bind]
          refine rest _ l (.inl rfl) hl fun ho d hd hdc => ?_
          have : d = 2 * pos + 1 + 1 := by unfold Child at hd; omega
          subst this
          intro x y hx hy
          rw [huk _ (by omega), hl] at hx; rw [huk _ (by omega), hr'] at hy
          cases hx; cases hy
          exact ho.asymm _ _ (by simpa [less] using hlt)
        · simp only [hlt, Bool.false_eq_true, if_false, value_ok hr', Out.ok_bind]
          refine rest _ r (.inr (by omega)) hr' fun ho d hd hdc => ?_
          have : d = 2 * pos + 1 := by unfold Child at hd; omega
          subst this
          intro x y hx hy
          rw [huk _ (by omega), hr'] at hx; rw [huk _ (by omega), hl] at hy
          cases hx; cases hy
          simpa [less] using hlt
      · simp only [if_neg hr, value_ok hl, Out.ok_bind]
        refine rest _ l (.inl rfl) hl fun ho d hd hdc => ?_
        intro x y _ hy
        have := (List.getElem?_eq_some_iff.1 hy).1
        rw [List.length_set] at this
        unfold Child at hd; omega
    · have e : siftupLoop cmp new (fuel + 1) v pos = _ := if_neg hc
      rw [e, poke_ok hp, Out.ok_bind]
      exact ⟨_, _, rfl, by rw [List.length_set]; exact hp, .refl _, id,
        fun _ _ h => h.leaf (by rw [List.length_set]; exact hc)⟩

theorem siftup_spec (cmp : α → α → Int) (v : List α) (pos : Nat) (hp : pos < v.length) :
    ∃ w, siftup cmp v pos = .ok w ∧ w.Perm v ∧ (Orders cmp → Tidy cmp (pos + 1) v → Tidy cmp pos w) := by
  obtain ⟨new, hn⟩ := lookup hp
  obtain ⟨w, q, hw, hq, hperm, hd, hr⟩ := siftupLoop_spec cmp pos new (v.length + 1) v pos (by omega) hp
  have e : v.set pos new = v := by
    obtain ⟨_, rfl⟩ := List.getElem?_eq_some_iff.1 hn
    exact List.set_getElem_self _
  rw [e] at hperm hr
  obtain ⟨w', hw', hperm', ht⟩ := siftdown_spec cmp w pos q hq
  refine ⟨w', by rw [siftup, value_ok hn, Out.ok_bind, hw, Out.ok_bind, hw'], hperm'.trans hperm, fun ho h => ?_⟩
  refine ht ho (hd .refl) (hr ho .refl ⟨fun p i hpi hs hne _ => h p i hpi (by omega), fun p c hpc hs _ => ?_⟩)
  unfold Child at hpc; omega

theorem heapifyLoop_spec (cmp : α → α → Int) : ∀ (i : Nat) (v : List α), i ≤ v.length →
    ∃ w, heapifyLoop cmp i v = .ok w ∧ w.Perm v ∧ (Orders cmp → Tidy cmp i v → Tidy cmp 0 w)
  | 0, v, _ => ⟨v, rfl, .refl _, fun _ h => h⟩
  | i + 1, v, h => by
    obtain ⟨w, hw, hp, ht⟩ := siftup_spec cmp v i (by omega)
    obtain ⟨w', hw', hp', ht'⟩ := heapifyLoop_spec cmp i w (by rw [hp.length_eq]; omega)
    exact ⟨w', by rw [heapifyLoop, hw, Out.ok_bind, hw'], hp'.trans hp, fun ho h => ht' ho (ht ho h)⟩

theorem heapify_spec (cmp : α → α → Int) (v : List α) :
    ∃ w, heapify cmp v = .ok w ∧ w.Perm v ∧ (Orders cmp → Tidy cmp 0 w) := by
  obtain ⟨w, hw, hp, ht⟩ := heapifyLoop_spec cmp (v.length / 2) v (by omega)
  refine ⟨w, hw, hp, fun ho => ht ho fun p i hpi hs x y _ hy => ?_⟩
  have := (List.getElem?_eq_some_iff.1 hy).1
  unfold Child at hpi; omega

theorem push_spec (cmp : α → α → Int) (v : List α) (x : α) :
    ∃ w, push cmp v x = .ok w ∧ w.Perm (x :: v) ∧ (Orders cmp → Tidy cmp 0 v → Tidy cmp 0 w) := by
  obtain ⟨w, hw, hp, ht⟩ := siftdown_spec cmp (v ++ [x]) 0 ((v ++ [x]).length - 1) (by simp)
  refine ⟨w, hw, hp.trans (by simpa using List.perm_append_comm (l₁ := v) (l₂ := [x])), fun ho h => ht ho (Desc.zero _) ⟨?_, ?_⟩⟩
  · intro p i hpi hs hi a b ha hb
    have hil := (List.getElem?_eq_some_iff.1 hb).1
    simp only [List.length_append, List.length_singleton, Nat.add_sub_cancel] at hi hil
    have hi' : i < v.length := by omega
    have hp' : p < v.length := by unfold Child at hpi; omega
    rw [List.getElem?_append_left hp'] at ha
    rw [List.getElem?_append_left hi'] at hb
    exact h p i hpi hs a b ha hb
  · intro p c _ _ hc a b _ hb
    have := (List.getElem?_eq_some_iff.1 hb).1
    simp only [List.length_append, List.length_singleton, Nat.add_sub_cancel] at this hc
    unfold Child at hc; omega

/-- The first item of a heap is not after any other. -/
theorem Tidy.least {cmp : α → α → Int} (ho : Orders cmp) {v : List α} (h : Tidy cmp 0 v) {x : α} (hx : v.head? = some x) :
    Least cmp v x := by
  have h0 : v[0]? = some x := by rw [← hx]; exact List.head?_eq_getElem?.symm
  refine ⟨List.mem_of_mem_head? hx, fun y hy => ?_⟩
  obtain ⟨i, hi⟩ := List.mem_iff_getElem?.1 hy
  clear hy
  induction i using Nat.strongRecOn generalizing y with
  | ind i ih =>
    cases i with
    | zero =>
      rw [h0] at hi; cases hi
      exact fun hlt => ho.asymm _ _ hlt hlt
    | succ i =>
      have hil := (List.getElem?_eq_some_iff.1 hi).1
      obtain ⟨z, hz⟩ := lookup (v := v) (i := i / 2) (by omega)
      exact ho.trans _ _ _ (ih (i / 2) (by omega) z hz) (h (i / 2) (i + 1) (by unfold Child; omega) (Nat.zero_le _) _ _ hz hi)

theorem Tidy.take {cmp : α → α → Int} {s : Nat} {v : List α} (h : Tidy cmp s v) (n : Nat) : Tidy cmp s (v.take n) := by
  intro p i hpi hs x y hx hy
  have hsub : ∀ {k : Nat} {z : α}, (v.take n)[k]? = some z → v[k]? = some z := by
    intro k z hk
    rw [List.getElem?_take] at hk
    split at hk
    · exact hk
    · cases hk
  exact h p i hpi hs x y (hsub hx) (hsub hy)

theorem Tidy.set_zero {cmp : α → α → Int} {v : List α} (h : Tidy cmp 0 v) (x : α) : Tidy cmp 1 (v.set 0 x) := by
  intro p i hpi hs a b ha hb
  rw [List.getElem?_set_ne (by omega)] at ha
  rw [List.getElem?_set_ne (by unfold Child at hpi; omega)] at hb
  exact h p i hpi (Nat.zero_le _) a b ha hb

theorem replace_spec (cmp : α → α → Int) (x : α) (m : List α) (y : α) :
    ∃ w, replace cmp (x :: m) y = .ok (some x, w) ∧ w.Perm (y :: m) ∧ (Orders cmp → Tidy cmp 0 (x :: m) → Tidy cmp 0 w) := by
  obtain ⟨w, hw, hp, ht⟩ := siftup_spec cmp (y :: m) 0 (by simp)
  refine ⟨w, ?_, hp, fun ho h => ht ho (h.set_zero y)⟩
  rw [replace, if_neg (by simp), value_ok (x := x) rfl, Out.ok_bind, poke_ok (by simp), Out.ok_bind, List.set_cons_zero, hw]
  rfl

theorem pop_spec (cmp : α → α → Int) (x : α) (m : List α) :
    ∃ w, pop cmp (x :: m) = .ok (some x, w) ∧ w.Perm m ∧ (Orders cmp → Tidy cmp 0 (x :: m) → Tidy cmp 0 w) := by
  rcases List.eq_nil_or_concat m with rfl | ⟨m, z, rfl⟩
  · refine ⟨[], rfl, .refl _, fun _ _ p i _ _ a b ha => by simp at ha⟩
  · have hlast : (x :: (m.concat z))[(x :: (m.concat z)).length - 1]? = some z := by simp
    have htake : (x :: (m.concat z)).take ((x :: (m.concat z)).length - 1) = x :: m := by simp
    obtain ⟨w, hw, hp, ht⟩ := siftup_spec cmp (z :: m) 0 (by simp)
    refine ⟨w, ?_, hp.trans ?_, fun ho h => ht ho ?_⟩
    · rw [pop, if_neg (by simp), value_ok hlast, Out.ok_bind]
      simp only [htake]
      rw [if_pos (by simp), value_ok (x := x) rfl, Out.ok_bind, poke_ok (by simp), Out.ok_bind, List.set_cons_zero, hw]
      rfl
    · rw [List.concat_eq_append]
      exact List.perm_append_comm (l₁ := [z]) (l₂ := m)
    · have := (h.take (m.length + 1)).set_zero z
      simpa using this

end Verif.PtrHeap
