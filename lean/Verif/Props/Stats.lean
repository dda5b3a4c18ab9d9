import Verif.Lemmas.Stats
import Verif.Lemmas.QueryFilter
import Verif.Model.Stats
import Verif.Props.Timeouts

/-!
# C33: the counters account for every row

A stage is observed at both of its ends (`observed`); observing changes nothing (`C33_observing`).
-/

namespace Verif.Props
open Verif Spec

/-! ## Any stage among others, any history -/

/-- Observing a stage changes neither rows nor counters. -/
theorem C33_observing (before : List PipeOp) (o : PipeOp) (after : List PipeOp) (M : Mach) (g : Stage) (w : World)
    (ops : List Event) :
    (history g (observed before o after M) w ops).world = (history g (pipe (before ++ o :: after) M) w ops).world ∧
    (history g (observed before o after M) w ops).rows = (history g (pipe (before ++ o :: after) M) w ops).rows ∧
    (history g (observed before o after M) w ops).ends = (history g (pipe (before ++ o :: after) M) w ops).ends := by
  obtain ⟨e, h⟩ := erases_observed before o after M
  rw [h.history]
  exact ⟨rfl, rfl, rfl⟩

/-- Over any history of a source with any stages on it, the rows a stage has taken are the rows it has
handed on, the rows it has counted as filtered, and `lost` rows over which a call ended: at most one for
every call that ended without a row, none at all for the time-limit, offset and removal stages and
filters that only pass or drop rows.
The property says that nothing is lost; `C33_lost_counterexample` shows that something can be. -/
theorem C33_stage_partial {g : Stage} {M : Mach} (hM : Leaves g M) (before : List PipeOp) (o : PipeOp)
    (after : List PipeOp) (ho : o.stage = some g) (hb : ∀ x ∈ before, x.stage ≠ some g)
    (ha : ∀ x ∈ after, x.stage ≠ some g) (w : World) (ops : List Event) :
    let h := history g (observed before o after M) w ops
    ∃ lost, lost ≤ total callsEnded h.its ∧ (o.clean → lost = 0) ∧
      total rowsTaken h.its + o.rejected w = total rowsPassed h.its + o.rejected h.world + lost := by
  have hc := Closed.pipe after (balance_closed (leaves_pipe hM before hb) o ho) ha
  refine history_ind (X := observed before o after M) hc
    (fun its w' => ∃ lost, lost ≤ total callsEnded its ∧ (o.clean → lost = 0) ∧
      total rowsTaken its + o.rejected w = total rowsPassed its + o.rejected w' + lost) w ?_ ?_ ?_ ?_ ops
  · exact ⟨0, Nat.zero_le _, fun _ => rfl, by simp [total]⟩
  · rintro its w' V ⟨lost, h1, h2, h3⟩
    have hs : under after (tapM (o.on (tapM (pipe before M)))) ((observed before o after M).start V) =
      ((o.on (tapM (pipe before M))).start V, 0, 0) := under_start after _ V
    have e1 : callsEnded ((observed before o after M).start V) = 0 := by unfold callsEnded; rw [hs]
    have e2 : rowsPassed ((observed before o after M).start V) = 0 := by unfold rowsPassed; rw [hs]
    have e3 : rowsTaken ((observed before o after M).start V) = 0 := by
      unfold rowsTaken; rw [hs]; simp only [op_start]; rfl
    refine ⟨lost, ?_, h2, ?_⟩
    · rw [total_append]; omega
    · rw [total_append, total_append, e2, e3]; omega
  · rintro its w1 i s s' w2 ⟨lost, h1, h2, h3⟩ hi ⟨l, a1, a2, a3⟩
    have t1 := total_set (f := callsEnded) (s' := s') hi
    have t2 := total_set (f := rowsPassed) (s' := s') hi
    have t3 := total_set (f := rowsTaken) (s' := s') hi
    have a1 : l + callsEnded s ≤ callsEnded s' := a1
    have a3 : rowsTaken s' + o.rejected w1 + rowsPassed s = rowsTaken s + o.rejected w2 + rowsPassed s' + l := a3
    exact ⟨lost + l, by omega, fun c => by rw [h2 c, a2 c], by omega⟩
  · rintro its w1 w2 ⟨lost, h1, h2, h3⟩ hu
    exact ⟨lost, h1, h2, by rw [rejected_untouched ho hu]; exact h3⟩

/-- Nothing is lost by the offset, the removal, and filters that only pass or drop. -/
theorem C33_clean {g : Stage} {M : Mach} (hM : Leaves g M) (before : List PipeOp) (o : PipeOp)
    (after : List PipeOp) (ho : o.stage = some g) (hb : ∀ x ∈ before, x.stage ≠ some g)
    (ha : ∀ x ∈ after, x.stage ≠ some g) (hc : o.clean) (w : World) (ops : List Event) :
    let h := history g (observed before o after M) w ops
    total rowsTaken h.its + o.rejected w = total rowsPassed h.its + o.rejected h.world := by
  obtain ⟨lost, -, h2, h3⟩ := C33_stage_partial hM before o after ho hb ha w ops
  rw [h2 hc] at h3
  exact h3

/-- The offset stage counts the smaller of the offset and the number of rows that reached it. -/
theorem C33_offset {M : Mach} (hM : Leaves .filterOffset M) (before after : List PipeOp)
    (hb : ∀ x ∈ before, x.stage ≠ some .filterOffset) (ha : ∀ x ∈ after, x.stage ≠ some .filterOffset)
    (w : World) (ops : List Event) :
    let h := history .filterOffset (observed before .offset after M) w ops
    (h.world.stats .filterOffset).filtered =
      (w.stats .filterOffset).filtered + min w.offset (total rowsTaken h.its) := by
  intro h
  have h1 := C33_clean hM before .offset after rfl hb ha trivial w ops
  have hY : Leaves .filterOffset (tapM (pipe before M)) :=
    ⟨fun s w => (leaves_pipe hM before hb).next s.1 w, fun s k w => (leaves_pipe hM before hb).seek s.1 k w⟩
  have hc := Closed.pipe after (offset_closed hY) ha
  have h2 := history_ind (X := observed before .offset after M) hc
    (fun its w' => (w'.stats .filterOffset).filtered + w'.offset = (w.stats .filterOffset).filtered + w.offset ∧
      (0 < total rowsPassed its → w'.offset = 0)) w ⟨rfl, fun h => by simp [total] at h⟩ ?_ ?_ ?_ ops
  · have h1 : total rowsTaken h.its + (w.stats .filterOffset).filtered =
      total rowsPassed h.its + (h.world.stats .filterOffset).filtered := h1
    have h3 : (h.world.stats .filterOffset).filtered + h.world.offset = (w.stats .filterOffset).filtered + w.offset := h2.1
    have h4 : 0 < total rowsPassed h.its → h.world.offset = 0 := h2.2
    rcases Nat.eq_zero_or_pos (total rowsPassed h.its) with hz | hp
    · omega
    · have := h4 hp
      omega
  · rintro its w' V ⟨a, b⟩
    have hs : under after (tapM (PipeOp.offset.on (tapM (pipe before M)))) ((observed before .offset after M).start V) =
      ((PipeOp.offset.on (tapM (pipe before M))).start V, 0, 0) := under_start after _ V
    have e2 : rowsPassed ((observed before .offset after M).start V) = 0 := by unfold rowsPassed; rw [hs]
    exact ⟨a, fun h => b (by rw [total_append, e2] at h; omega)⟩
  · rintro its w1 i s s' w2 ⟨a, b⟩ hi ⟨c1, c2, c3, c4⟩
    have t2 := total_set (f := rowsPassed) (s' := s') hi
    have c2 : rowsPassed s ≤ rowsPassed s' := c2
    have c3 : rowsPassed s < rowsPassed s' → w2.offset = 0 := c3
    refine ⟨c1.trans a, fun hp => ?_⟩
    by_cases hlt : rowsPassed s < rowsPassed s'
    · exact c3 hlt
    · have := b (by omega)
      omega
  · rintro its w1 w2 ⟨a, b⟩ hu
    exact ⟨by rw [hu.1, hu.2 rfl]; exact a, fun h => by rw [hu.2 rfl]; exact b h⟩

/-- The bailiwick filter takes three rows and counts two; the offset takes and counts the other; another
iterator is opened in between and moved, and takes the last row of the index. -/
example :
    let f : PipeOp := .filter .filterBailiwick (filterBailiwick [3, 99, 111, 109, 0])
    let ops : List Event := [.openIter (.pfx [0]), .next 0, .openIter .all, .seek 1 [1, 1, 97, 3, 111], .next 1, .next 0]
    let M := curM exRows fun _ _ => false
    let h := history .filterBailiwick (observed [] f [.offset] M) (exWorld 1) ops
    let h' := history .filterOffset (observed [f] .offset [] M) (exWorld 1) ops
    total rowsTaken h.its = 4 ∧ total rowsPassed h.its = 1 ∧ (h.world.stats .filterBailiwick).filtered = 3 ∧
      total rowsTaken h'.its = 1 ∧ (h'.world.stats .filterOffset).filtered = 1 ∧ h'.rows = 0 ∧ h'.ends = 3 := by
  decide +kernel

/-- A row whose type is not the one asked for, over which the address filter gives up: there is no address
after 255.255.255.255 to go on with. -/
def lostRow : KV := ([2, 255, 255, 255, 255, 1, 80, 16, 6, 0], [1, 1, 1])

/-- A row can be lost: the filter of a query for the address 255.255.255.255 takes one row, hands on none
and counts none. -/
theorem C33_lost_counterexample :
    ∃ q p f, initKind q = .ok p ∧ p.onSource = [(.filterRrtype, f)] ∧
      let h := history .filterRrtype (observed [] (.filter .filterRrtype f) [] (curM [lostRow] fun _ _ => false))
        (exWorld 0) [.openIter p.view, .next 0]
      total rowsTaken h.its = 1 ∧ total rowsPassed h.its = 0 ∧ (h.world.stats .filterRrtype).filtered = 0 := by
  refine ⟨{ qType := .rdataIp, doRrtype := true, rrtype := 1, ip1 := [255, 255, 255, 255] },
    { onSource := [(.filterRrtype, filterRrtypeIp 1 6)], view := .pfx [2, 255, 255, 255, 255, 1] },
    filterRrtypeIp 1 6, rfl, rfl, ?_⟩
  decide +kernel

/-! ## The stages of a query -/

theorem withFilters_pipe (fs : List Filt) : ∀ M : Mach, withFilters fs M = pipe (fs.map fun f => .filter f.1 f.2) M := by
  induction fs with
  | nil => intro M; rfl
  | cons f fs ih => intro M; exact ih _

/-- The sources of an assembled query are the given sources with these stages on them. -/
theorem C33_assembled (q : Query) (S : Sources) (p : Plan) :
    (assemble q S p).source = pipe (sourceOps q S p) S.source ∧ (assemble q S p).index = pipe (indexOps q p) S.index := by
  have ht : ∀ M, withTimeout q M = pipe (if q.lim.active then [.timeout] else []) M := by
    intro M
    unfold withTimeout
    split <;> rfl
  refine ⟨?_, ?_⟩
  · simp only [assemble, sourceOps, pipe_append, withFilters_pipe, ht, withOffset, withTimes]
    rcases S with ⟨so, ix, rm, fill⟩
    simp only
    generalize pipe _ (pipe _ so) = N
    by_cases hb : q.bounds.any = true
    · by_cases ho : q.offset > 0 <;> cases rm <;> cases fill <;> simp [hb, ho, withFill, withRemove, pipe, PipeOp.on]
    · by_cases ho : q.offset > 0 <;> cases fill <;> simp [hb, ho, withFill, pipe, PipeOp.on]
  · simp only [assemble, indexOps, pipe_append, withFilters_pipe, ht]

theorem plan_stages {q : Query} {p : Plan} (h : initKind q = .ok p) :
    ((p.onSource ++ p.onIndex).map (·.1)).Nodup ∧
      ∀ g ∈ (p.onSource ++ p.onIndex).map (·.1), g ∈ [Stage.filterSingleLabel, .filterRrtype, .filterBailiwick] := by
  have nil : (List.map (fun x : Filt => x.1) ([] ++ [])).Nodup ∧ ∀ g ∈ List.map (fun x : Filt => x.1) ([] ++ []),
    g ∈ [Stage.filterSingleLabel, .filterRrtype, .filterBailiwick] := by simp
  have rd : (rdataNameFilter q).1 = .filterRrtype := by unfold rdataNameFilter; split <;> rfl
  unfold initKind at h
  split at h
  · unfold initRrset at h
    split at h
    · unfold initRrsetLeft at h
      obtain ⟨key, -, h⟩ := out_bind h
      cases h
      simp only [singleLabelIf, rrtypeIf, filtIf, bailiwickIf]
      rename_i plus _
      cases plus <;> cases q.doRrtype <;> cases q.bailiwick <;> simp
    · split at h
      · unfold initRrsetRight at h
        cases h
        simp only [singleLabelIf, rrtypeIf, filtIf, bailiwickIf]
        rename_i plus _
        cases plus <;> cases q.doRrtype <;> cases q.bailiwick <;> simp
      · unfold initRrsetExact at h
        obtain ⟨rev, -, h⟩ := out_bind h
        split at h
        · cases h
        · split at h
          · obtain ⟨key, -, h⟩ := out_bind h
            cases h
            exact nil
          · cases h
            simp only [bailiwickIf]
            cases q.bailiwick <;> simp
  · unfold initRdataName at h
    split at h
    · unfold initRdataRight at h
      cases h
      simp only [singleLabelIf, filtIf]
      rename_i plus _
      cases plus <;> simp [rd]
    · split at h
      · unfold initRdataLeft at h
        obtain ⟨key, -, h⟩ := out_bind h
        cases h
        simp only [singleLabelIf, filtIf]
        rename_i plus _
        cases plus <;> simp [rd]
      · unfold initRdataExact at h
        simp only at h
        split at h
        · obtain ⟨key, -, h⟩ := out_bind h
          cases h
          simp [rd]
        · obtain ⟨key, -, h⟩ := out_bind h
          cases h
          simp [rd]
  · unfold initRdataIp at h
    obtain ⟨_, -, h⟩ := out_bind h
    obtain ⟨_, -, h⟩ := out_bind h
    obtain ⟨key, -, h⟩ := out_bind h
    simp only at h
    split at h
    · obtain ⟨k2, -, h⟩ := out_bind h
      obtain ⟨k3, -, h⟩ := out_bind h
      cases h
      simp
    · cases h
      simp
  · unfold initRdataRaw at h
    obtain ⟨d, -, h⟩ := out_bind h
    cases h
    simp only [rrtypeIf, filtIf]
    cases q.doRrtype <;> simp
  · cases h; exact nil
  · cases h; exact nil
  · cases h; exact nil

/-- No query has two stages that share counters. -/
theorem C33_stages_distinct {q : Query} {p : Plan} (h : initKind q = .ok p) (S : Sources) :
    ((sourceOps q S p ++ indexOps q p).filterMap PipeOp.stage).Nodup := by
  obtain ⟨hn, hm⟩ := plan_stages h
  have e1 : ∀ l : List Filt, (l.map fun f => PipeOp.filter f.1 f.2).filterMap PipeOp.stage = l.map (·.1) := by
    intro l
    induction l with
    | nil => rfl
    | cons f l ih => simp [PipeOp.stage, ih]
  have et : ∀ b : Bool, (if b then [PipeOp.timeout] else []).filterMap PipeOp.stage = [] := by intro b; cases b <;> rfl
  rw [List.map_append] at hn hm
  simp only [sourceOps, indexOps, List.filterMap_append, e1, et, List.nil_append]
  generalize p.onSource.map (·.1) = A at hn hm
  generalize p.onIndex.map (·.1) = B at hn hm
  have perm : ∀ C : List Stage, (A ++ B ++ C).Nodup → (A ++ C ++ B).Nodup := by
    intro C hC
    refine List.Perm.nodup ?_ hC
    rw [List.append_assoc, List.append_assoc]
    exact List.Perm.append_left A List.perm_append_comm
  have fin : ∀ C : List Stage, C.Nodup → (∀ g ∈ C, g ∉ [Stage.filterSingleLabel, .filterRrtype, .filterBailiwick]) →
      (A ++ C ++ B).Nodup := by
    intro C hC hd
    refine perm C ?_
    rw [List.nodup_append]
    refine ⟨hn, hC, ?_⟩
    rintro a ha b hb rfl
    exact hd a hb (hm a ha)
  simp only [List.append_assoc]
  rw [show ∀ X Y Z W : List Stage, A ++ (X ++ (Y ++ (Z ++ (W ++ B)))) = A ++ (X ++ (Y ++ (Z ++ W))) ++ B by
    intro X Y Z W; simp]
  refine fin _ ?_ ?_
  · cases q.bounds.any <;> cases S.rm <;> cases S.fill <;> by_cases ho : q.offset > 0 <;> simp [ho, PipeOp.stage]
  · cases q.bounds.any <;> cases S.rm <;> cases S.fill <;> by_cases ho : q.offset > 0 <;> simp [ho, PipeOp.stage]

/-- The query iterator and the world after some calls of `dnstable_iter_next`, with the time limits in
force at each call. -/
def afterCalls (q : Query) (B : Built) : List Limits → QSt B × World → QSt B × World
  | [], x => x
  | l :: ls, x => afterCalls q B ls (queryNext { q with lim := l } B x.1 x.2).2

theorem afterCalls_source {g : Stage} (q : Query) (B : Built) (hI : Leaves g B.index) (w0 : World) (ls : List Limits) :
    ∃ its, Reach g B.source w0 its (afterCalls q B ls (B.start, w0)).2 := by
  have gen : ∀ (ls : List Limits) (x : QSt B × World),
      (match x.1 with
        | .direct s => ∃ its, Reach g B.source w0 (its ++ [s]) x.2
        | .indirect _ _ m => ∃ its, Reach g B.source w0 (its ++ m.toList) x.2) →
      ∃ its, Reach g B.source w0 its (afterCalls q B ls x).2 := by
    intro ls
    induction ls with
    | nil =>
      rintro ⟨x, w⟩ h
      cases x with
      | direct s => exact ⟨_, h.choose_spec⟩
      | indirect tb i m => exact ⟨_, h.choose_spec⟩
    | cons l ls ih =>
      rintro ⟨x, w⟩ h
      refine ih _ ?_
      cases x with
      | direct s =>
        obtain ⟨its, h⟩ := h
        exact ⟨its, (Reach.direct (B.source.size s + 1) (h.env (armTimer_untouched g l w))).env (disarm_untouched g _)⟩
      | indirect tb i m =>
        obtain ⟨its, h⟩ := h
        obtain ⟨its', h'⟩ := Reach.indirect hI { q with lim := l } tb (2 * B.index.size i + 3) i m _ its
          (h.env (armTimer_untouched g l w))
        exact ⟨its', h'.env (disarm_untouched g _)⟩
  refine gen ls _ ?_
  unfold Built.start
  cases B.indirect with
  | none => exact ⟨[], (reach_nil g B.source w0).opened B.view⟩
  | some tb => exact ⟨[], reach_nil g B.source w0⟩

theorem afterCalls_index {g : Stage} (q : Query) (B : Built) (hS : Leaves g B.source) (w0 : World) (ls : List Limits) :
    ∃ its, Reach g B.index w0 its (afterCalls q B ls (B.start, w0)).2 := by
  have gen : ∀ (ls : List Limits) (x : QSt B × World),
      (match x.1 with
        | .direct _ => Reach g B.index w0 [] x.2
        | .indirect _ i _ => Reach g B.index w0 [i] x.2) →
      ∃ its, Reach g B.index w0 its (afterCalls q B ls x).2 := by
    intro ls
    induction ls with
    | nil =>
      rintro ⟨x, w⟩ h
      cases x with
      | direct s => exact ⟨_, h⟩
      | indirect tb i m => exact ⟨_, h⟩
    | cons l ls ih =>
      rintro ⟨x, w⟩ h
      refine ih _ ?_
      cases x with
      | direct s =>
        exact ((h.env (armTimer_untouched g l w)).env (directLoop_untouched hS (B.source.size s + 1) s _)).env (disarm_untouched g _)
      | indirect tb i m =>
        exact (Reach.index hS { q with lim := l } tb (2 * B.index.size i + 3) i m _
          (h.env (armTimer_untouched g l w))).env (disarm_untouched g _)
  refine gen ls _ ?_
  unfold Built.start
  cases B.indirect with
  | none => exact reach_nil g B.index w0
  | some tb => exact (reach_nil g B.index w0).opened B.view

theorem stage_others {A B C : List PipeOp} {before : List PipeOp} {o : PipeOp} {after : List PipeOp} {g : Stage}
    (hn : ((A ++ B ++ C).filterMap PipeOp.stage).Nodup) (he : B = before ++ o :: after) (ho : o.stage = some g) :
    (∀ x ∈ A ++ C, x.stage ≠ some g) ∧ (∀ x ∈ before, x.stage ≠ some g) ∧ ∀ x ∈ after, x.stage ≠ some g := by
  subst he
  have hmem : ∀ {l : List PipeOp} {x : PipeOp}, x ∈ l → x.stage = some g → g ∈ l.filterMap PipeOp.stage :=
    fun hx hg => List.mem_filterMap.mpr ⟨_, hx, hg⟩
  simp only [List.filterMap_append, List.filterMap_cons, ho, List.nodup_append, List.nodup_cons, List.mem_append,
    List.mem_cons] at hn
  obtain ⟨⟨hA, ⟨-, hb2, hb3⟩, hAB⟩, hC, hABC⟩ := hn
  refine ⟨fun x hx hg => ?_, fun x hx hg => ?_, fun x hx hg => ?_⟩
  · rcases List.mem_append.mp hx with hx | hx
    · exact hAB g (hmem hx hg) g (by simp) rfl
    · exact hABC g (by simp) g (hmem hx hg) rfl
  · exact hb3 g (hmem hx hg) g (by simp) rfl
  · exact hb2.1 (hmem hx hg)

/-- The main source of any query, after any number of calls with any time limits: for each of its stages
rows taken are rows handed on, rows counted, and at most one row for every call that ended without one. -/
theorem C33_query_partial {q : Query} {p : Plan} (hp : initKind q = .ok p) (S : Sources) {g : Stage}
    (hs : Leaves g S.source) (hi : Leaves g S.index) {before : List PipeOp} {o : PipeOp} {after : List PipeOp}
    (he : sourceOps q S p = before ++ o :: after) (ho : o.stage = some g) (w0 : World) (ls : List Limits) :
    ∃ ops, let h := history g (observed before o after S.source) w0 ops
      h.world = (afterCalls q (assemble q S p) ls ((assemble q S p).start, w0)).2 ∧
      ∃ lost, lost ≤ total callsEnded h.its ∧ (o.clean → lost = 0) ∧
        total rowsTaken h.its + o.rejected w0 = total rowsPassed h.its + o.rejected h.world + lost := by
  obtain ⟨h1, h2, h3⟩ := stage_others (A := []) (C := indexOps q p) (C33_stages_distinct hp S) he ho
  obtain ⟨eS, eI⟩ := C33_assembled q S p
  have hI : Leaves g (assemble q S p).index := by
    rw [eI]; exact leaves_pipe hi _ fun x hx => h1 x (by simpa using hx)
  obtain ⟨its, ops, -, hw⟩ := afterCalls_source q (assemble q S p) hI w0 ls
  rw [eS, he, ← (C33_observing before o after S.source g w0 ops).1] at hw
  exact ⟨ops, hw, C33_stage_partial hs before o after ho h2 h3 w0 ops⟩

/-- The same for the stages on the index. -/
theorem C33_index_partial {q : Query} {p : Plan} (hp : initKind q = .ok p) (S : Sources) {g : Stage}
    (hs : Leaves g S.source) (hi : Leaves g S.index) {before : List PipeOp} {o : PipeOp} {after : List PipeOp}
    (he : indexOps q p = before ++ o :: after) (ho : o.stage = some g) (w0 : World) (ls : List Limits) :
    ∃ ops, let h := history g (observed before o after S.index) w0 ops
      h.world = (afterCalls q (assemble q S p) ls ((assemble q S p).start, w0)).2 ∧
      ∃ lost, lost ≤ total callsEnded h.its ∧ (o.clean → lost = 0) ∧
        total rowsTaken h.its + o.rejected w0 = total rowsPassed h.its + o.rejected h.world + lost := by
  have hn := C33_stages_distinct hp S
  rw [← List.append_nil (sourceOps q S p ++ indexOps q p)] at hn
  obtain ⟨h1, h2, h3⟩ := stage_others hn he ho
  obtain ⟨eS, eI⟩ := C33_assembled q S p
  have hS : Leaves g (assemble q S p).source := by
    rw [eS]; exact leaves_pipe hs _ fun x hx => h1 x (by simpa using hx)
  obtain ⟨its, ops, -, hw⟩ := afterCalls_index q (assemble q S p) hS w0 ls
  rw [eI, he, ← (C33_observing before o after S.index g w0 ops).1] at hw
  exact ⟨ops, hw, C33_stage_partial hi before o after ho h2 h3 w0 ops⟩

/-- The offset stage of any query, after any number of calls: it has counted the smaller of the offset and
the number of rows that reached it, and the rows handed on are the others. -/
theorem C33_query_offset {q : Query} {p : Plan} (hp : initKind q = .ok p) (S : Sources)
    (hs : Leaves .filterOffset S.source) (hi : Leaves .filterOffset S.index) (hq : q.offset > 0)
    (w0 : World) (hw0 : w0.offset = q.offset) (hc0 : (w0.stats .filterOffset).filtered = 0) (ls : List Limits) :
    ∃ ops before, let h := history .filterOffset (observed before .offset [] S.source) w0 ops
      sourceOps q S p = before ++ [.offset] ∧
      h.world = (afterCalls q (assemble q S p) ls ((assemble q S p).start, w0)).2 ∧
      (h.world.stats .filterOffset).filtered = min q.offset (total rowsTaken h.its) ∧
      total rowsPassed h.its = total rowsTaken h.its - q.offset := by
  have he : ∃ before, sourceOps q S p = before ++ [PipeOp.offset] := by
    unfold sourceOps
    rw [if_pos hq]
    exact ⟨_, rfl⟩
  obtain ⟨before, he⟩ := he
  obtain ⟨h1, h2, h3⟩ := stage_others (A := []) (C := indexOps q p) (C33_stages_distinct hp S) he rfl
  obtain ⟨ops, hw, -⟩ := C33_query_partial hp S hs hi he rfl w0 ls
  have ho := C33_offset hs before [] h2 h3 w0 ops
  have hb := C33_clean hs before .offset [] rfl h2 h3 trivial w0 ops
  have hb : total rowsTaken (history .filterOffset (observed before .offset [] S.source) w0 ops).its +
      (w0.stats .filterOffset).filtered =
    total rowsPassed (history .filterOffset (observed before .offset [] S.source) w0 ops).its +
      ((history .filterOffset (observed before .offset [] S.source) w0 ops).world.stats .filterOffset).filtered := hb
  refine ⟨ops, before, he, hw, ?_, ?_⟩
  · rw [ho, hc0, hw0]; omega
  · rw [ho, hc0, hw0] at hb; omega

/-- An offset of two for `a.com`, which has two RRsets, one of them undecodable: both are counted. -/
example :
    let q : Query := { qType := .rrset, name := [1, 97, 3, 99, 111, 109, 0], offset := 2 }
    let p : Plan := { view := .pfx [0, 3, 99, 111, 109, 1, 97, 0] }
    let S := plainSources (curM exRows fun _ _ => false)
    q.offset > 0 ∧ (exWorld 2).offset = q.offset ∧ ((exWorld 2).stats .filterOffset).filtered = 0 ∧
      sourceOps q S p = [.offset] ∧
      ((afterCalls q (assemble q S p) [{}, {}] ((assemble q S p).start, exWorld 2)).2.stats .filterOffset).filtered = 2 := by
  refine ⟨by decide, rfl, rfl, rfl, by decide +kernel⟩

/-! ## What callers are told -/

/-- The numbers of the stages, as in the manual page. -/
def stageNo : Stage → Nat
  | .fileset => 0 | .filterSingleLabel => 1 | .filterRrtype => 2 | .filterBailiwick => 3 | .filterTimePrefilter => 4
  | .removeStrict => 5 | .fillMerger => 6 | .ljoin => 7 | .filterTime => 8 | .filterOffset => 9

/-- For each stage a query has, the number reported as filtered is the one of the laws above. -/
theorem C33_reported {q : Query} {p : Plan} (hp : initKind q = .ok p) (S : Sources) {o : PipeOp} {g : Stage}
    (hm : o ∈ sourceOps q S p ++ indexOps q p) (ho : o.stage = some g) (hl : g ≠ .ljoin)
    (files fillFiles : Nat) (w : World) (found0 : Bool) (count0 : Nat) :
    iterGetCount (some (iterStats q S p files fillFiles w)) (stageNo g) 0 found0 (some count0) =
      ⟨true, true, o.rejected w⟩ := by
  obtain ⟨-, hst⟩ := plan_stages hp
  have hf : ∀ f : Filt, f ∈ p.onSource ++ p.onIndex → o = .filter f.1 f.2 →
      iterGetCount (some (iterStats q S p files fillFiles w)) (stageNo g) 0 found0 (some count0) =
        ⟨true, true, o.rejected w⟩ := by
    rintro f hf rfl
    cases ho
    have hg := hst f.1 (List.mem_map_of_mem hf)
    have hany : ((p.onSource ++ p.onIndex).any fun x => x.1 == f.1) = true :=
      List.any_eq_true.mpr ⟨f, hf, by simp⟩
    simp only [List.mem_cons, List.not_mem_nil, or_false] at hg
    have hpr : (iterStats q S p files fillFiles w).present f.1 = true := by
      rcases hg with hg | hg | hg <;> rw [hg] at hany ⊢ <;> exact hany
    have hw : (iterStats q S p files fillFiles w).stats = w.stats := rfl
    rcases hg with hg | hg | hg <;> rw [hg] at hpr <;>
      simp [hg, stageNo, iterGetCount, queryIterGetCount, filterCounter, plainFilterCounter, hpr, hw, PipeOp.rejected]
  simp only [sourceOps, indexOps, List.mem_append] at hm
  rcases hm with (((((hm | hm) | hm) | hm) | hm) | hm) | (hm | hm)
  · split at hm
    · simp at hm; subst hm; cases ho
    · simp at hm
  · obtain ⟨f, hf1, hf2⟩ := List.mem_map.mp hm
    exact hf f (List.mem_append_left _ hf1) hf2.symm
  · split at hm
    · rename_i hb
      simp only [List.mem_append, List.mem_cons, List.not_mem_nil, or_false] at hm
      rcases hm with hm | hm
      · subst hm; cases ho
        simp [stageNo, iterGetCount, queryIterGetCount, filterCounter, plainFilterCounter, iterStats, hb, PipeOp.rejected]
      · split at hm
        · rename_i l hr
          simp at hm; subst hm; cases ho
          simp [stageNo, iterGetCount, queryIterGetCount, removeCounter, iterStats, hr, PipeOp.rejected]
        · simp at hm
    · simp at hm
  · split at hm
    · simp at hm; subst hm; cases ho; exact absurd rfl hl
    · simp at hm
  · split at hm
    · rename_i hb
      simp at hm; subst hm; cases ho
      simp [stageNo, iterGetCount, queryIterGetCount, filterCounter, plainFilterCounter, iterStats, hb, PipeOp.rejected]
    · simp at hm
  · split at hm
    · rename_i hb
      simp at hm; subst hm; cases ho
      simp [stageNo, iterGetCount, queryIterGetCount, filterCounter, plainFilterCounter, iterStats, hb, PipeOp.rejected]
    · simp at hm
  · split at hm
    · simp at hm; subst hm; cases ho
    · simp at hm
  · obtain ⟨f, hf1, hf2⟩ := List.mem_map.mp hm
    exact hf f (List.mem_append_right _ hf1) hf2.symm

/-- Unknown stages and categories, and a NULL `count`, are refused. -/
theorem C33_refused (it : Option IterStats) (stage category : Nat) (found0 : Bool) (count0 : Option Nat)
    (h : stage > 9 ∨ category > 3 ∨ count0 = none ∨ it = none) :
    (iterGetCount it stage category found0 count0).success = false := by
  match it, count0 with
  | none, _ => rfl
  | some it, none => rfl
  | some it, some c =>
    simp only [reduceCtorEq, or_false] at h
    rcases h with h | h
    · match stage, h with
      | n + 10, _ => rfl
    · match category, h with
      | n + 4, _ =>
        have e0 : ∀ a b c d e f, getCounter a b c d e (n + 4) f = ⟨false, a, f⟩ := fun _ _ _ _ _ _ => rfl
        match stage with
        | 0 => rfl
        | 1 => simp only [iterGetCount, queryIterGetCount, filterCounter]; split <;> rfl
        | 2 => simp only [iterGetCount, queryIterGetCount, filterCounter]; split <;> rfl
        | 3 => simp only [iterGetCount, queryIterGetCount, plainFilterCounter, filterCounter]; split <;> rfl
        | 4 => simp only [iterGetCount, queryIterGetCount, plainFilterCounter, filterCounter]; split <;> rfl
        | 5 => simp only [iterGetCount, queryIterGetCount, removeCounter]; split <;> rfl
        | 6 => rfl
        | 7 => simp only [iterGetCount, queryIterGetCount, ljoinCounter]; split <;> rfl
        | 8 => simp only [iterGetCount, queryIterGetCount, plainFilterCounter, filterCounter]; split <;> rfl
        | 9 => simp only [iterGetCount, queryIterGetCount, plainFilterCounter, filterCounter]; split <;> rfl
        | m + 10 => rfl

/-- The manual page promises success for every valid stage and category.  A query without an offset is
told that the question failed. -/
theorem C33_absent_counterexample :
    ∃ q p w, initKind q = .ok p ∧
      (iterGetCount (some (iterStats q (plainSources (curM [] fun _ _ => false)) p 1 0 w)) (stageNo .filterOffset) 0 false
        (some 7)).success = false :=
  ⟨{ qType := .timeRange }, _, exWorld 0, rfl, by decide⟩

end Verif.Props
