import Verif.Lemmas.IterShape
import Verif.Model.Unaggregated

/-! # C62: the iterators in memory are those of the queries -/

namespace Verif.Props
open Verif Verif.Spec

/-- C62: an iterator over a table has, in memory, the stages, the keys and the kind of iteration that the query asks
for; there is none exactly if the query's arguments are not ones it can run with. -/
theorem C62_iterator (opens : Heap → Bool) (m : QueryMem) (src : List Nat) (M : Mach) (h h' : Heap) (r : Option DIterMem)
    (hr : queryIterMem opens m src h = .ok (r, h')) :
    match r with
    | none => initKind m.q = .fail
    | some d => ∃ p, initKind m.q = .ok p ∧ Embodies m.q (plainSources M) { source := src, index := src } p d.it := by
  have := yields_queryIter opens m src M h r h' hr
  cases r <;> exact this

/-- C62: an iterator over a set of files has them too.  Each file is in one place: with the files queried, with the files
whose records are joined, or with those whose records are removed; the last two exist whenever there is a file for them. -/
theorem C62_iterator_files (opens : Heap → Bool) (m : QueryMem) (fs : Nat) (files : List FileMem) (env : FsEnv) (F : Fenced)
    (ha : m.q.aggregated = true) (h h' : Heap) (r : Option DIterMem)
    (hr : queryIterFilesetMem opens m fs files h = .ok (r, h')) :
    let S := filesetSources m.q.bounds env F
    (∀ f ∈ files, (verdict m.q.bounds f = .remove → S.rm.isSome = true) ∧ (verdict m.q.bounds f = .fill → S.fill.isSome = true)) ∧
    match r with
    | none => initKind m.q = .fail
    | some d => ∃ p set merger self, initKind m.q = .ok p ∧
        Embodies m.q S { source := set :: fs :: self :: withVerdict m.q.bounds .keep files
                         index := set :: fs :: self :: withVerdict m.q.bounds .keep files
                         remove := withVerdict m.q.bounds .remove files
                         right := merger :: self :: withVerdict m.q.bounds .fill files } p d.it := by
  intro S
  have hrm : S.rm.isSome = (m.q.aggregated && m.q.bounds.any && (m.q.bounds.firstAfter.isSome || m.q.bounds.lastBefore.isSome)) := by
    rw [ha, Bool.true_and]
    simp only [S, filesetSources]
    split <;> simp_all
  have hfl : S.fill.isSome = (m.q.aggregated && m.q.bounds.any) := by
    rw [ha, Bool.true_and]
    simp only [S, filesetSources]
    split <;> simp_all
  refine ⟨?_, ?_⟩
  · intro f _
    rw [hrm, hfl, ha]
    unfold verdict
    split
    · exact ⟨nofun, nofun⟩
    · split
      · unfold fenceTimes Bounds.any
        cases m.q.bounds.firstAfter <;> cases m.q.bounds.firstBefore <;> cases m.q.bounds.lastAfter <;> cases m.q.bounds.lastBefore <;> simp <;>
          (try grind)
      · exact ⟨nofun, nofun⟩
  · have := yields_queryIterFileset opens m fs files S hrm hfl h r h' hr
    cases r with
    | none => exact this
    | some d =>
      obtain ⟨p, f, f', g, i, hp, hf, he⟩ := this
      rw [hf ha] at he
      exact ⟨p, f, g, i, hp, he⟩

/-- C62: without aggregation there are two copies of the file set, one for the records and one for the index, and nothing
is joined or removed. -/
theorem C62_iterator_unaggregated (opens : Heap → Bool) (m : QueryMem) (fs : Nat) (files : List FileMem) (env : FsEnv) (F : Loose)
    (ha : m.q.aggregated = false) (h h' : Heap) (r : Option DIterMem)
    (hr : queryIterFilesetMem opens m fs files h = .ok (r, h')) :
    match r with
    | none => initKind m.q = .fail
    | some d => ∃ p set set' self, initKind m.q = .ok p ∧
        Embodies m.q (looseSources env F) { source := set' :: fs :: self :: withVerdict m.q.bounds .keep files
                                            index := set :: fs :: self :: withVerdict m.q.bounds .keep files } p d.it := by
  have := yields_queryIterFileset opens m fs files (looseSources env F) (by rw [ha]; rfl) (by rw [ha]; rfl) h r h' hr
  cases r with
  | none => exact this
  | some d =>
    obtain ⟨p, f, f', g, i, hp, -, he⟩ := this
    refine ⟨p, f, f', i, hp, ?_, ?_, he.filters, he.keys, he.indirect⟩
    · rw [he.source]
      refine congrArg _ (List.map_congr_left fun o ho => ?_)
      revert ho
      unfold sourceOps looseSources
      cases o <;> simp [PipeOp.layer]
      all_goals cases m.q.lim.active <;> cases m.q.bounds.any <;> by_cases h0 : m.q.offset > 0 <;> simp [h0]
    · rw [he.index]
      refine congrArg _ (List.map_congr_left fun o ho => ?_)
      revert ho
      unfold indexOps
      cases o <;> simp [PipeOp.layer]
      all_goals cases m.q.lim.active <;> simp

/-- C62: the entry delivered is the one that is decoded from the record found. -/
theorem C62_delivered (opens : Heap → Bool) (d d' : DIterMem) (as : List QAct) (e : Option EntryMem) (h h' : Heap)
    (hr : iterNextMem opens d as h = .ok ((d', e), h')) : e.map (·.e) = firstEntry as := by
  have : Yields (iterNextMem opens d as) fun r => r.2.map (·.e) = firstEntry as := by
    unfold iterNextMem
    refine Yields.skip fun _ => (yields_qActs opens as d.it).bind ?_
    rintro ⟨it, e⟩ h
    exact .pure h
  exact this h _ h' hr

/-! ## Examples -/

/-- A query for the names under abc, of type 1, with an offset and time bounds. -/
private def namesUnder : QueryMem :=
  { self := 0, q := { qType := .rrset, name := [1, 42, 3, 97, 98, 99, 0], rrtype := 1, doRrtype := true, offset := 2, bounds := { firstAfter := some 5 }, aggregated := true } }

/-- A file whose time range is from 1 to 3, and one without. -/
private def twoFiles : List FileMem := [⟨1, [.deliver [254] [1, 3]]⟩, ⟨2, []⟩]

/-- A heap with the query and the files. -/
private def filesHeap : Heap := ⟨4, [(0, []), (1, []), (2, []), (3, [])]⟩

/-- The sources, the lengths of the keys and the kind of an iterator. -/
private def shown (x : Out (Option DIterMem × Heap)) : Option (List Layer × List Layer × Nat × Nat × Bool) :=
  match x with
  | .ok (some d, _) => some (layers d.it.source, layers d.it.index, d.it.keyLen, d.it.key2Len, d.it.indirect)
  | _ => none

example : shown (queryIterFilesetMem (fun _ => true) namesUnder 3 twoFiles filesHeap) = some
    ([.base [12, 3, 4, 2], .filter, .filter, .remove [1], .ljoin [11, 4], .filter, .filter], [.base [12, 3, 4, 2]], 5, 0, false) := by
  decide +kernel
example : twoFiles.map (verdict namesUnder.q.bounds) = [.remove, .keep] := by decide +kernel
example : shown (queryIterFilesetMem (fun _ => true) { namesUnder with q := { namesUnder.q with aggregated := false } } 3 twoFiles
    filesHeap) = some
    ([.base [22, 3, 4, 2], .filter, .filter, .filter, .filter], [.base [6, 3, 4, 2]], 5, 0, false) := by
  decide +kernel
example : shown (queryIterMem (fun _ => true) { namesUnder with q := { namesUnder.q with name := [3, 97, 98, 99, 1, 42, 0], lim := { doTimeout := true, timeout := ⟨1, 0⟩ } } } [3]
    filesHeap) = some
    ([.base [3], .timeout, .filter, .filter, .filter, .filter], [.base [3], .timeout], 5, 0, true) := by
  decide +kernel
example (d d' : DIterMem) (e : Option EntryMem) (h h' : Heap)
    (hr : iterNextMem (fun _ => true) d [.step .self, .deliver [] [], .deliver [254] [1, 3]] h = .ok ((d', e), h')) :
    e.map (·.e) = some { eType := 254, timeFirst := 1, timeLast := 3 } :=
  (C62_delivered _ _ _ _ _ _ _ hr).trans (by decide +kernel)
example : (match queryIterMem (fun _ => true) { self := 0, q := timeRangeQuery } [3] filesHeap with
    | .ok (some d, h) => match iterNextMem (fun _ => true) d [.step .self, .deliver [] [], .deliver [254] [1, 3]] h with
      | .ok ((_, some _), _) => true
      | _ => false
    | _ => false) = true := by decide +kernel

end Verif.Props
