import Verif.Model.Dupsort
import Verif.Spec.Times
import Verif.Lemmas.Triplet
import Verif.Lemmas.Entry

/-! # C34: order of unaggregated rows -/

namespace Verif.Props
open Verif Verif.Spec

theorem dupsort_eq {key : Bytes} (hk : key.head? = some 0 ∨ key.head? = some 2) {a b : Obs} (ha : a.legal)
    (hb : b.legal) : dupsortFunc key a.value b.value = .ok (
      if a.first < b.first then .lt else if a.first > b.first then .gt
      else if a.last < b.last then .lt else if a.last > b.last then .gt else .eq) := by
  have hl : ∀ o : Obs, ¬ o.value.length = 0 := by
    intro o h
    simp only [Obs.value, List.length_append] at h
    have := leb_length_pos o.first
    omega
  rcases key with _ | ⟨t, key⟩
  · simp at hk
  · simp only [List.head?_cons, Option.some.injEq] at hk
    have ht : t.toNat = tRRSET ∨ t.toNat = tRDATA := by
      rcases hk with rfl | rfl
      · exact .inl (by decide)
      · exact .inr (by decide)
    unfold dupsortFunc
    simp only
    rw [if_pos ht, if_neg (by simp [hl])]
    have e : ∀ o : Obs, o.legal → tripletUnpack o.value = .ok (o.first, o.last, o.count) := by
      intro o ho
      rw [Obs.value_eq, tripletUnpack_pack ho.1 ho.2.1 ho.2.2]
    rw [e a ha, e b hb]
    simp only
    repeat' split
    all_goals rfl

/-- C34: on the values of one RRset or rdata key the comparison never fails, is antisymmetric, orders by
first-seen and then last-seen time, and is transitive: a total preorder. -/
theorem C34_preorder (key : Bytes) (hk : key.head? = some 0 ∨ key.head? = some 2) (a b c : Obs) (ha : a.legal)
    (hb : b.legal) (hc : c.legal) :
    ∃ r s t, dupsortFunc key a.value b.value = .ok r ∧ dupsortFunc key b.value a.value = .ok r.swap ∧
      dupsortFunc key b.value c.value = .ok s ∧ dupsortFunc key a.value c.value = .ok t ∧
      (r = .lt ↔ TimesLe a b ∧ ¬ TimesLe b a) ∧ (r = .eq ↔ a.first = b.first ∧ a.last = b.last) ∧
      (r ≠ .gt → s ≠ .gt → t ≠ .gt) := by
  refine ⟨_, _, _, dupsort_eq hk ha hb, ?_, dupsort_eq hk hb hc, dupsort_eq hk ha hc, ?_⟩
  · rw [dupsort_eq hk hb ha]
    repeat' split
    all_goals first | rfl | omega
  · unfold TimesLe
    refine ⟨?_, ?_, ?_⟩
    · repeat' split
      all_goals (simp; try omega)
    · repeat' split
      all_goals (simp; try omega)
    · repeat' split
      all_goals (simp; try omega)

example : dupsortFunc [0, 0] (Obs.value ⟨5, 9, 1⟩) (Obs.value ⟨5, 200, 1⟩) = .ok .lt := by decide +kernel

/-- Rows of one key come out in an order the comparison accepts. -/
def Ordered (key : Bytes) (l : List Obs) : Prop :=
  l.Pairwise fun a b => dupsortFunc key a.value b.value ≠ .ok .gt

instance (key : Bytes) (l : List Obs) : Decidable (Ordered key l) := by unfold Ordered; exact inferInstance

/-- C34 (partial: the counts are not compared, see `C34_counts_counterexample`): however the rows of a key are
distributed over files, the result shows the same sequence of times; when rows of equal times agree in their
counts the result is the same altogether. -/
theorem C34_order_partial (key : Bytes) (hk : key.head? = some 0 ∨ key.head? = some 2) (l m : List Obs)
    (hl : ∀ o ∈ l, o.legal) (hp : l.Perm m) (h1 : Ordered key l) (h2 : Ordered key m) :
    (l.map fun o => (o.first, o.last)) = (m.map fun o => (o.first, o.last)) ∧
    ((∀ a ∈ l, ∀ b ∈ l, a.first = b.first → a.last = b.last → a.count = b.count) → l = m) := by
  have gt : ∀ a b : Obs, a.legal → b.legal → dupsortFunc key a.value b.value ≠ .ok .gt → TimesLe a b := by
    intro a b ha hb h
    rw [dupsort_eq hk ha hb] at h
    unfold TimesLe
    revert h
    repeat' split
    all_goals (simp; try omega)
  have hm : ∀ o ∈ m, o.legal := fun o ho => hl o (hp.symm.subset ho)
  have s1 : l.Pairwise TimesLe := h1.imp_of_mem fun ha hb h => gt _ _ (hl _ ha) (hl _ hb) h
  have s2 : m.Pairwise TimesLe := h2.imp_of_mem fun ha hb h => gt _ _ (hm _ ha) (hm _ hb) h
  constructor
  · refine List.Perm.eq_of_pairwise (le := fun p q : Nat × Nat => p.1 < q.1 ∨ (p.1 = q.1 ∧ p.2 ≤ q.2)) ?_
      (List.pairwise_map.2 s1) (List.pairwise_map.2 s2) (hp.map _)
    rintro ⟨a, b⟩ ⟨c, d⟩ - - h h'
    simp only at h h'
    simp only [Prod.mk.injEq]
    omega
  · intro hc
    refine List.Perm.eq_of_pairwise (le := TimesLe) ?_ s1 s2 hp
    rintro a b ha hb h h'
    have hb := hp.symm.subset hb
    unfold TimesLe at h h'
    have e1 : a.first = b.first := by omega
    have e2 : a.last = b.last := by omega
    have e3 := hc a ha b hb e1 e2
    rcases a with ⟨_, _, _⟩; rcases b with ⟨_, _, _⟩
    simp only at e1 e2 e3
    rw [e1, e2, e3]

example : Ordered [2, 1] [⟨3, 8, 1⟩, ⟨3, 9, 4⟩, ⟨3, 9, 4⟩, ⟨4, 4, 9⟩] := by decide +kernel

/-- C34 fails for counts: two rows with equal times and different counts may come out in either order, so the
result depends on the order of the files. -/
theorem C34_counts_counterexample : ∃ (key : Bytes) (l m : List Obs),
    key.head? = some 0 ∧ (∀ o ∈ l, o.legal) ∧ l.Perm m ∧ Ordered key l ∧ Ordered key m ∧ l ≠ m :=
  ⟨[0, 0, 1, 0], [⟨5, 6, 1⟩, ⟨5, 6, 2⟩], [⟨5, 6, 2⟩, ⟨5, 6, 1⟩], rfl,
    by intro o ho; simp at ho; rcases ho with rfl | rfl <;> exact ⟨by decide, by decide, by decide⟩,
    List.Perm.swap .., by decide +kernel, by decide +kernel, by decide⟩

end Verif.Props
