import Verif.Lemmas.Ljoin
import Verif.Lemmas.Remove
import Verif.Lemmas.Runs
import Verif.Props.Merge
import Verif.Spec.Records

/-!
# C29, C30, C31 for the table operators
-/

namespace Verif.Props
open Verif Verif.Spec

theorem mergeFunc_triplet_value (key : Bytes) (hk : key.head? = some 0 ∨ key.head? = some 2)
    {o p : Obs} (ho : o.legal) (hp : p.legal) :
    mergeFunc key o.value p.value
      = .ok (Obs.value ⟨min o.first p.first, max o.last p.last, (o.count + p.count) % 2 ^ 64⟩) := by
  have h := C04_merge_triplets key hk o.first o.last o.count p.first p.last p.count ho hp
  simpa only [Obs.value, tripletPack_eq, List.append_assoc] using h

/-- C29: the left join of two sorted tables answers every sequence of calls as the list of the left
rows does, each with its value combined with the right table's value for the same key, if there is
one.  `combine` is what the merge function computes on the keys both tables have. -/
theorem C29_ljoin (A B : Table) (hA : Sorted A) (hB : Sorted B) (sfA sfB : View → Bytes → Bool)
    (V : View) (merge : MergeFn) (combine : Bytes → Bytes → Bytes → Bytes)
    (hm : ∀ a ∈ A, ∀ b ∈ B, b.1 = a.1 → merge a.1 a.2 b.2 = .ok (combine a.1 a.2 b.2))
    (ops : List Op) :
    let M := ljoinM merge (curM A sfA) (curM B sfB)
    Serves false (some V.lo) ((rowsIn A V).map (joined combine B)) ops (answers M (M.start V) ops) := by
  have h := impl_ljoin (impl_cur hA sfA V) hB sfB (merge := merge) (combine := combine)
    (fun a ha b hb e => hm a (List.mem_filter.1 ha).1 b hb e)
    (fun x hx => (List.mem_filter.1 hx).2)
  exact impl_serves h ops (by simp)

/-- Three left rows, two of them present on the right. -/
example :
    let A : Table := [([0, 1], [1, 1, 1]), ([0, 2], [2, 2, 2]), ([0, 4], [3, 3, 3])]
    let B : Table := [([0, 1], [0, 9, 5]), ([0, 3], [7, 7, 7]), ([0, 4], [4, 8, 1])]
    let M := ljoinM mergeFunc (curM A fun _ _ => false) (curM B fun _ _ => true)
    Sorted A ∧ Sorted B
    ∧ answers M (M.start (.pfx [0])) (List.replicate 4 (.next (simpleWorld 0 0 false)))
      = [.got (.item ([0, 1], [0, 9, 6])), .got (.item ([0, 2], [2, 2, 2])),
         .got (.item ([0, 4], [3, 8, 4])), .got .done] := by decide +kernel

/-- C29: the left join with the library's merge function over RRset or rdata tables: a left row's
observation is aggregated with the right row's (minimum, maximum, sum). -/
theorem C29_ljoin_observations (A B : List (Bytes × Obs)) (ht : ∀ a ∈ A, a.1.head? = some 0 ∨ a.1.head? = some 2)
    (hA : ∀ a ∈ A, a.2.legal) (hB : ∀ b ∈ B, b.2.legal)
    (sA : Sorted (A.map fun a => (a.1, a.2.value))) (sB : Sorted (B.map fun b => (b.1, b.2.value)))
    (sfA sfB : View → Bytes → Bool) (V : View) (ops : List Op) :
    let M := ljoinM mergeFunc (curM (A.map fun a => (a.1, a.2.value)) sfA)
      (curM (B.map fun b => (b.1, b.2.value)) sfB)
    Serves false (some V.lo)
      ((A.filter fun a => inView V a.1).map fun a =>
        match B.find? fun b => b.1 == a.1 with
        | none => (a.1, a.2.value)
        | some b => (a.1, Obs.value ⟨min a.2.first b.2.first, max a.2.last b.2.last,
            (a.2.count + b.2.count) % 2 ^ 64⟩))
      ops (answers M (M.start V) ops) := by
  intro M
  let combine : Bytes → Bytes → Bytes → Bytes := fun k v v' =>
    match mergeFunc k v v' with
    | .ok x => x
    | _ => []
  have hmerge : ∀ a ∈ A, ∀ b ∈ B, mergeFunc a.1 a.2.value b.2.value
      = .ok (Obs.value ⟨min a.2.first b.2.first, max a.2.last b.2.last,
            (a.2.count + b.2.count) % 2 ^ 64⟩) := by
    intro a ha b hb
    have h := mergeFunc_triplet_value a.1 (ht a ha) (hA a ha) (hB b hb)
    exact h
  have h := C29_ljoin _ _ sA sB sfA sfB V mergeFunc combine (by
    intro a ha b hb _
    obtain ⟨a, ha', rfl⟩ := List.mem_map.1 ha
    obtain ⟨b, hb', rfl⟩ := List.mem_map.1 hb
    simp only [combine, hmerge a ha' b hb']) ops
  have e : (rowsIn (A.map fun a => (a.1, a.2.value)) V).map (joined combine (B.map fun b => (b.1, b.2.value)))
      = (A.filter fun a => inView V a.1).map fun a =>
        match B.find? fun b => b.1 == a.1 with
        | none => (a.1, a.2.value)
        | some b => (a.1, Obs.value ⟨min a.2.first b.2.first, max a.2.last b.2.last,
            (a.2.count + b.2.count) % 2 ^ 64⟩) := by
    rw [rowsIn, List.filter_map, List.map_map]
    apply List.map_congr_left
    intro a ha
    have ha := (List.mem_filter.1 ha).1
    simp only [Function.comp, joined, valueOf, List.find?_map, Option.map_map]
    have hc : (fun kv : KV => kv.1 == a.1) ∘ (fun b : Bytes × Obs => (b.1, b.2.value))
        = fun b => b.1 == a.1 := rfl
    rw [hc]
    cases hf : B.find? fun b => b.1 == a.1 with
    | none => rfl
    | some b =>
      have hb := List.mem_of_find?_eq_some hf
      simp only [Option.map_some, combine, Function.comp, hmerge a ha b hb]
  rw [e] at h
  exact h

/-- Its hypotheses hold for two observation tables sharing a key. -/
example :
    let A : List (Bytes × Obs) := [([0, 1], ⟨5, 300, 2⟩), ([0, 2], ⟨7, 8, 1⟩)]
    let B : List (Bytes × Obs) := [([0, 1], ⟨4, 9, 3⟩)]
    (∀ a ∈ A, a.1.head? = some 0 ∨ a.1.head? = some 2) ∧ (∀ a ∈ A, a.2.legal) ∧ (∀ b ∈ B, b.2.legal)
    ∧ Sorted (A.map fun a => (a.1, a.2.value)) ∧ Sorted (B.map fun b => (b.1, b.2.value)) := by
  decide +kernel

/-- C29: the removal operator over sorted tables answers every sequence of calls as the list of the
rows whose key occurs in no removal table does. -/
theorem C29_remove (A : Table) (hA : Sorted A) (rms : List Src) (hR : ∀ r ∈ rms, Sorted r.rows)
    (sf : View → Bytes → Bool) (V : View) (ops : List Op) :
    let M := removeM rms (curM A sf)
    Serves false (some V.lo)
      ((rowsIn A V).filter fun kv => !rms.any fun r => r.rows.any fun x => x.1 == kv.1)
      ops (answers M (M.start V) ops) := by
  have h := impl_remove (impl_cur hA sf V) (rms := rms) hR (fun x hx => (List.mem_filter.1 hx).2)
  exact impl_serves h ops (by simp)

/-- Two removal tables, one of which has an entry in front of the view. -/
example :
    let A : Table := [([0, 1], [1]), ([0, 2], [2]), ([0, 4], [3]), ([0, 5], [4]), ([2], [5])]
    let R1 : Src := ⟨[([0], []), ([0, 2], [])], fun _ _ => true⟩
    let R2 : Src := ⟨[([0, 1], []), ([0, 5], []), ([3], [])], fun _ _ => false⟩
    let M := removeM [R1, R2] (curM A fun _ _ => false)
    Sorted A ∧ Sorted R1.rows ∧ Sorted R2.rows
    ∧ answers M (M.start (.pfx [0])) (List.replicate 2 (.next (simpleWorld 0 0 false)))
      = [.got (.item ([0, 4], [3])), .got .done] := by decide +kernel

end Verif.Props
