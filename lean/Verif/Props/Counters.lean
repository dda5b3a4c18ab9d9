import Verif.Props.Stats
import Verif.Spec.Counters
import Verif.Model.FilesetStats
import Verif.Model.Unaggregated

/-!
# C64: what `dnstable_iter_get_count` answers
-/

namespace Verif.Props
open Verif Verif.Spec

theorem hasStage_iff {q : Query} {p : Plan} (hp : initKind q = .ok p) (S : Sources)
    (hrm : S.rm ≠ none → q.bounds.any = true) (files fillFiles : Nat) (w : World) (g : Stage) :
    HasStage q S p g ↔ (iterStats q S p files fillFiles w).present g = true := by
  obtain ⟨-, hst⟩ := plan_stages hp
  have ops : (∃ o ∈ sourceOps q S p ++ indexOps q p, o.stage = some g) ↔
      g ∈ (p.onSource ++ p.onIndex).map (·.1) ∨ (q.bounds.any = true ∧ (g = .filterTimePrefilter ∨ g = .filterTime)) ∨
        (q.bounds.any = true ∧ S.rm ≠ none ∧ g = .removeStrict) ∨ (S.fill ≠ none ∧ g = .ljoin) ∨
        (q.offset > 0 ∧ g = .filterOffset) := by
    have e0 : (∃ o ∈ sourceOps q S p ++ indexOps q p, o.stage = some g) ↔
        g ∈ (sourceOps q S p ++ indexOps q p).filterMap PipeOp.stage := by simp only [List.mem_filterMap]
    have e1 : ∀ l : List Filt, (l.map fun f => PipeOp.filter f.1 f.2).filterMap PipeOp.stage = l.map (·.1) := by
      intro l
      induction l with
      | nil => rfl
      | cons f l ih => simp [PipeOp.stage, ih]
    have et : ∀ b : Bool, (if b then [PipeOp.timeout] else []).filterMap PipeOp.stage = [] := by intro b; cases b <;> rfl
    rw [e0]
    simp only [sourceOps, indexOps, List.filterMap_append, e1, et, List.nil_append, List.map_append]
    generalize p.onSource.map (·.1) = A
    generalize p.onIndex.map (·.1) = B
    rcases S with ⟨so, ix, rm, fill⟩
    by_cases hb : q.bounds.any = true <;> by_cases ho : q.offset > 0 <;> cases rm <;> cases fill <;>
      simp [hb, ho, PipeOp.stage] <;> grind
  have hany : ∀ g, ((p.onSource ++ p.onIndex).any fun f => f.1 == g) = true ↔ g ∈ (p.onSource ++ p.onIndex).map (·.1) := by
    intro g
    simp only [List.any_eq_true, List.mem_map, beq_iff_eq]
  have hg := hst g
  unfold HasStage
  rw [ops]
  clear ops hst
  rcases S with ⟨so, ix, rm, fill⟩
  simp only at hrm
  cases rm <;> cases fill <;> cases g <;> simp [iterStats] at hg hrm hany ⊢ <;> grind

/-- For every stage and category: `*exists` tells whether the query has the stage and the stage keeps the
counter, and if so the count is the stage's. -/
theorem C64_exists {q : Query} {p : Plan} (hp : initKind q = .ok p) (S : Sources)
    (hrm : S.rm ≠ none → q.bounds.any = true) (files fillFiles : Nat) (w : World) (g : Stage) (c : Category)
    (found0 : Bool) (count0 : Nat) :
    ∃ r, iterGetCount (some (iterStats q S p files fillFiles w)) (stageNo g) c.no found0 (some count0) = r ∧
      (r.found = true ↔ HasStage q S p g ∧ c ∈ keeps g) ∧
      (r.found = true → r.success = true ∧ r.count = stageCount S files fillFiles w g c) := by
  refine ⟨_, rfl, ?_⟩
  rw [hasStage_iff hp S hrm files fillFiles w g]
  have h0 : (iterStats q S p files fillFiles w).present .fileset = true := rfl
  have hv : stageCount S files fillFiles w g c = stageCount S (iterStats q S p files fillFiles w).filesetFiles
      (iterStats q S p files fillFiles w).fillFiles w g c := rfl
  have hr : (iterStats q S p files fillFiles w).rmFiles = (S.rm.getD []).length := rfl
  have hm : (iterStats q S p files fillFiles w).filesetMerged = (w.stats .fileset).merged := rfl
  have hn : (iterStats q S p files fillFiles w).fillMerged = (w.stats .fillMerger).merged := rfl
  have hw : (iterStats q S p files fillFiles w).stats = w.stats := rfl
  rw [hv]
  generalize iterStats q S p files fillFiles w = it at *
  cases h : it.present g <;> cases g <;> cases c <;>
    simp_all [iterGetCount, queryIterGetCount, stageNo, Category.no, getCounter, filterCounter, plainFilterCounter, removeCounter,
      ljoinCounter, keeps, stageCount]

/-- The question succeeds for every stage the query has, and for the second source even if there is none; for
any other stage it fails and the count is 0. -/
theorem C64_success {q : Query} {p : Plan} (hp : initKind q = .ok p) (S : Sources)
    (hrm : S.rm ≠ none → q.bounds.any = true) (files fillFiles : Nat) (w : World) (g : Stage) (c : Category)
    (found0 : Bool) (count0 : Nat) :
    ∃ r, iterGetCount (some (iterStats q S p files fillFiles w)) (stageNo g) c.no found0 (some count0) = r ∧
      (r.success = true ↔ HasStage q S p g ∨ g = .fillMerger) ∧ (r.success = false → r.count = 0) := by
  refine ⟨_, rfl, ?_⟩
  rw [hasStage_iff hp S hrm files fillFiles w g]
  have h0 : (iterStats q S p files fillFiles w).present .fileset = true := rfl
  generalize iterStats q S p files fillFiles w = it at *
  cases h : it.present g <;> cases g <;> cases c <;>
    simp_all [iterGetCount, queryIterGetCount, stageNo, Category.no, getCounter, filterCounter, plainFilterCounter, removeCounter,
      ljoinCounter]

/-- A question that succeeds with `*exists` false gives 0, except for the skips of filters that do not report
theirs, and the second source of a query without one. -/
theorem C64_zero {q : Query} {p : Plan} (S : Sources) (files fillFiles : Nat) (w : World) (g : Stage) (c : Category)
    (found0 : Bool) (count0 : Nat) :
    ∃ r, iterGetCount (some (iterStats q S p files fillFiles w)) (stageNo g) c.no found0 (some count0) = r ∧
      (r.success = true → r.found = false → (g = .fillMerger → S.fill ≠ none) →
        (c = .seek → (w.stats g).seek = 0 ∨ .seek ∈ keeps g) → r.count = 0) := by
  refine ⟨_, rfl, ?_⟩
  have hf : S.fill ≠ none → (iterStats q S p files fillFiles w).present .fillMerger = true := by
    intro h
    simpa [iterStats, Option.isSome_iff_ne_none] using h
  have hw : (iterStats q S p files fillFiles w).stats = w.stats := rfl
  generalize iterStats q S p files fillFiles w = it at *
  cases h : it.present g <;> cases g <;> cases c <;>
    simp_all [iterGetCount, queryIterGetCount, stageNo, Category.no, getCounter, filterCounter, plainFilterCounter, removeCounter,
      ljoinCounter, keeps]

/-! ## Files -/

theorem countFiles_eq (hasFill : Bool) : ∀ (ds : List (Fence × Src)) (c : Nat × Nat),
    countFiles hasFill c ds = (c.1 + (chosen .keep ds).length, c.2 + if hasFill then (chosen .fill ds).length else 0)
  | [], c => by simp [countFiles, chosen]
  | d :: ds, c => by
    have ih := countFiles_eq hasFill ds (countFile hasFill c d.1)
    have e : countFiles hasFill c (d :: ds) = countFiles hasFill (countFile hasFill c d.1) ds := rfl
    rw [e, ih]
    obtain ⟨d, f⟩ := d
    cases d <;> cases hasFill <;> simp [countFile, chosen] <;> omega

theorem fenceTimes_bounds (b : Bounds) (x y : Nat) :
    (fenceTimes b x y = .remove → (b.firstAfter.isSome || b.lastBefore.isSome) = true) ∧
    (fenceTimes b x y = .fill → b.any = true) := by
  obtain ⟨fb, fa, lb, la⟩ := b
  unfold fenceTimes Bounds.any
  cases fb <;> cases fa <;> cases lb <;> cases la <;> simp <;> split <;> simp

theorem chosen_cons (d e : Fence) (f : Src) (ds : List (Fence × Src)) :
    chosen d ((e, f) :: ds) = if e = d then f :: chosen d ds else chosen d ds := by
  cases d <;> cases e <;> simp [chosen]

theorem fence_bounds {b : Bounds} {f : Src} {w : World} {d : Fence} (h : fence b f w = .ok d) :
    (d = .remove → (b.firstAfter.isSome || b.lastBefore.isSome) = true) ∧ (d = .fill → b.any = true) := by
  unfold fence at h
  obtain ⟨p, -, h⟩ := out_bind h
  simp only at h
  split at h
  · split at h
    · rename_i x y _ _
      cases h
      exact fenceTimes_bounds b x y
    · cases h; exact ⟨by simp, by simp⟩
  · cases h; exact ⟨by simp, by simp⟩
  · cases h; exact ⟨by simp, by simp⟩
  · cases h

theorem fenceAll_bounds {b : Bounds} {w : World} : ∀ {files : List Src} {ds : List (Fence × Src)}, fenceAll b w files = .ok ds →
    ds.map (·.2) = files ∧ ((b.firstAfter.isSome || b.lastBefore.isSome) = false → chosen .remove ds = []) ∧
      (b.any = false → chosen .fill ds = [])
  | [], _, h => by cases h; exact ⟨rfl, fun _ => rfl, fun _ => rfl⟩
  | f :: fs, _, h => by
    unfold fenceAll at h
    obtain ⟨d, h1, h⟩ := out_bind h
    obtain ⟨ds, h2, h⟩ := out_bind h
    cases h
    obtain ⟨i1, i2, i3⟩ := fenceAll_bounds h2
    obtain ⟨j1, j2⟩ := fence_bounds h1
    refine ⟨by simp [i1], fun hb => ?_, fun hb => ?_⟩
    · rw [chosen_cons, i2 hb, if_neg fun e => by rw [hb] at j1; exact absurd (j1 e) (by decide)]
    · rw [chosen_cons, i3 hb, if_neg fun e => by rw [hb] at j2; exact absurd (j2 e) (by decide)]

theorem chosen_total : ∀ ds : List (Fence × Src),
    (chosen .keep ds).length + (chosen .fill ds).length + (chosen .remove ds).length = ds.length
  | [] => rfl
  | (d, f) :: ds => by
    have ih := chosen_total ds
    cases d <;> simp [chosen] at ih ⊢ <;> omega

/-- Files, for an aggregated query over a file set: the three stages that have files report how many they have,
and every file is counted once. -/
theorem C64_files {q : Query} {env : FsEnv} {F : Fenced} {ds : List (Fence × Src)} {p : Plan} {w0 : World} {files : List Src}
    (hF : fencedFiles q.bounds env w0 files = .ok F) (hd : fenceAll q.bounds w0 files = .ok ds) (w : World) (found0 : Bool) (count0 : Nat) :
    let r := fun g => iterGetCount (some (filesetStats q env F ds p w)) (stageNo g) Category.files.no found0 (some count0)
    (r .fileset).count = (chosen .keep ds).length ∧ (r .fillMerger).count = (chosen .fill ds).length ∧
      (r .removeStrict).count = (chosen .remove ds).length ∧
      (r .fileset).count + (r .fillMerger).count + (r .removeStrict).count = files.length := by
  intro r
  obtain ⟨e1, e2, e3⟩ := fenceAll_bounds hd
  have hrem : F.removed = chosen .remove ds := by
    unfold fencedFiles at hF
    rw [hd, Out.ok_bind] at hF
    obtain ⟨k, -, hF⟩ := out_bind hF
    obtain ⟨l, -, hF⟩ := out_bind hF
    cases hF
    rfl
  have k1 : (r .fileset).count = (chosen .keep ds).length := by
    show (countFiles q.bounds.any (0, 0) ds).1 = _
    rw [countFiles_eq]; simp
  have k2 : (r .fillMerger).count = (chosen .fill ds).length := by
    show (countFiles q.bounds.any (0, 0) ds).2 = _
    rw [countFiles_eq]
    cases hb : q.bounds.any with
    | true => simp
    | false => simp [e3 hb]
  have k3 : (r .removeStrict).count = (chosen .remove ds).length := by
    show (removeCounter (filesetSources q.bounds env F).rm.isSome (w.stats .removeStrict) ((filesetSources q.bounds env F).rm.getD []).length 3).count = _
    unfold filesetSources
    cases hb : (q.bounds.firstAfter.isSome || q.bounds.lastBefore.isSome) with
    | true =>
      have : q.bounds.any = true := by
        unfold Bounds.any
        revert hb
        cases q.bounds.firstAfter <;> cases q.bounds.lastBefore <;> simp
      simp [this, removeCounter, hrem]
    | false => simp [removeCounter, e2 hb]
  refine ⟨k1, k2, k3, ?_⟩
  rw [k1, k2, k3, chosen_total, ← e1, List.length_map]

/-- Files, for an unaggregated query: those used are counted twice, once for each of its two file sets. -/
theorem C64_files_unaggregated_partial {b : Bounds} {w w' : World} {files : List Src} {ds ds' : List (Fence × Src)}
    (h : fenceAll b w files = .ok ds) (h' : fenceAll b w' files = .ok ds') :
    looseFileCounts ds ds' = ((chosen .keep ds).length + (chosen .keep ds').length, 0) ∧
      (b.any = false → looseFileCounts ds ds' = (2 * files.length, 0)) := by
  have e : looseFileCounts ds ds' = ((chosen .keep ds).length + (chosen .keep ds').length, 0) := by
    unfold looseFileCounts
    rw [countFiles_eq, countFiles_eq]
    simp
  refine ⟨e, fun hb => ?_⟩
  have hs : (b.firstAfter.isSome || b.lastBefore.isSome) = false := by
    revert hb
    unfold Bounds.any
    cases b.firstAfter <;> cases b.lastBefore <;> simp
  obtain ⟨e1, e2, e3⟩ := fenceAll_bounds h
  obtain ⟨f1, f2, f3⟩ := fenceAll_bounds h'
  have t := chosen_total ds
  have t' := chosen_total ds'
  have n := congrArg List.length e1
  have n' := congrArg List.length f1
  rw [e2 hs, e3 hb] at t
  rw [f2 hs, f3 hb] at t'
  simp only [List.length_map, List.length_nil] at n n' t t'
  rw [e, Prod.mk.injEq]
  exact ⟨by omega, rfl⟩

/-- One file, and two reported. -/
theorem C64_files_counterexample :
    ∃ (q : Query) (p : Plan) (f : Src) (env : FsEnv) (w : World) (L : Loose) (ds ds' : List (Fence × Src)),
      q.aggregated = false ∧ initKind q = .ok p ∧ looseFiles q.bounds env w w [f] = .ok L ∧
      fenceAll q.bounds w [f] = .ok ds ∧ fenceAll q.bounds w [f] = .ok ds' ∧
      (iterGetCount (some (iterStats q (looseSources env L) p (looseFileCounts ds ds').1 (looseFileCounts ds ds').2 w))
        (stageNo .fileset) Category.files.no false (some 0)) = ⟨true, true, 2⟩ := by
  refine ⟨{ qType := .timeRange, aggregated := false }, _, ⟨[], fun _ _ => false⟩, ⟨fun _ => 0, fun _ => 0, fun _ _ => false, fun _ _ => false,
    fun _ _ => false⟩, exWorld 0, ⟨[], []⟩, [(.keep, ⟨[], fun _ _ => false⟩)], [(.keep, ⟨[], fun _ _ => false⟩)], rfl, rfl, rfl, rfl, rfl, rfl⟩

/-- Data of times 10 to 20, 3 to 8 and 1 to 2, asked for what was seen first after 5 and last after 9: the first
file is read, the second may complete what is read, the third rules it out.  With the second bound alone, or
none, no file is ruled out. -/
example :
    let env : FsEnv := ⟨fun _ => 0, fun _ => 0, fun _ _ => false, fun _ _ => false, fun _ _ => false⟩
    let f := fun a b => (⟨[([254], pairPack a b)], fun _ _ => false⟩ : Src)
    let files := [f 10 20, f 3 8, f 1 2]
    let look := fun b : Bounds => match fencedFiles b env (exWorld 0) files, fenceAll b (exWorld 0) files with
      | .ok F, .ok ds =>
        let it := filesetStats { qType := .timeRange, bounds := b } env F ds { view := .pfx [254] } (exWorld 0)
        [0, 6, 5].map fun g => (iterGetCount (some it) g 3 false (some 0)).count
      | _, _ => []
    look { firstAfter := some 5, lastAfter := some 9 } = [1, 1, 1] ∧ look { lastAfter := some 9 } = [1, 2, 0] ∧ look {} = [3, 0, 0] := by
  decide +kernel

/-- A query with time bounds on two sources, 4 files and 1 file, one of which is removed. -/
example :
    let q : Query := { qType := .timeRange, bounds := { firstAfter := some 5 } }
    let S : Sources := { plainSources (curM [] fun _ _ => false) with rm := some [⟨[], fun _ _ => false⟩], fill := some ⟨[], fun _ _ => false⟩ }
    let w : World := (exWorld 0).upd .removeStrict fun c => { c with filtered := 3, seek := 2 }
    ∃ p, initKind q = .ok p ∧ (S.rm ≠ none → q.bounds.any = true) ∧ HasStage q S p .removeStrict ∧ ¬ HasStage q S p .filterOffset ∧
      iterGetCount (some (iterStats q S p 4 1 w)) 5 0 false (some 9) = ⟨true, true, 3⟩ ∧
      iterGetCount (some (iterStats q S p 4 1 w)) 5 1 false (some 9) = ⟨true, false, 0⟩ ∧
      iterGetCount (some (iterStats q S p 4 1 w)) 5 2 false (some 9) = ⟨true, true, 2⟩ ∧
      iterGetCount (some (iterStats q S p 4 1 w)) 5 3 false (some 9) = ⟨true, true, 1⟩ ∧
      iterGetCount (some (iterStats q S p 4 1 w)) 0 3 false (some 9) = ⟨true, true, 4⟩ ∧
      iterGetCount (some (iterStats q S p 4 1 w)) 9 0 true (some 9) = ⟨false, false, 0⟩ := by
  refine ⟨_, rfl, fun _ => rfl, (hasStage_iff rfl _ (fun _ => rfl) 4 1 (exWorld 0) _).mpr rfl, ?_, rfl, rfl, rfl, rfl, rfl, rfl⟩
  rw [hasStage_iff rfl _ (fun _ => rfl) 4 1 (exWorld 0)]
  decide

end Verif.Props
