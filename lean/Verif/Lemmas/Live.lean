import Verif.Model.Live
import Verif.Lemmas.QueryFilter

/-!
# Open iterators of changing queries
-/

namespace Verif
open Spec

/-! ## Queries with the same criteria -/

/-- Two queries that agree in everything an open iterator reads for each row. -/
structure Agree (q q' : Query) : Prop where
  doRrtype : q.doRrtype = q'.doRrtype
  rrtype : q.rrtype = q'.rrtype
  bailiwick : q.bailiwick = q'.bailiwick
  bounds : q.bounds = q'.bounds

theorem removeQ_congr {q0 q q' : Query} {l : List Src} {M : QMach} (h : M.next q = M.next q') :
    (removeQ q0 l M).next q = (removeQ q0 l M).next q' := by
  unfold removeQ
  dsimp only [QMach.at]
  rw [h]

theorem ljoinQ_congr {q0 q q' : Query} {mg : MergeFn} {M : QMach} {R : Mach} (h : M.next q = M.next q') :
    (ljoinQ q0 mg M R).next q = (ljoinQ q0 mg M R).next q' := by
  unfold ljoinQ
  dsimp only [QMach.at]
  rw [h]

theorem filterQ_congr {q q' : Query} {g : Stage} {f : Query → FilterFn} {M : QMach} (h : M.next q = M.next q')
    (hf : f q = f q') : (filterQ g f M).next q = (filterQ g f M).next q' := by
  unfold filterQ
  dsimp only [QMach.at]
  rw [h, hf]

theorem liveFilter_congr {q q' : Query} (h : Agree q q') (q0 : Query) (n : Nat) (f : Filt) :
    liveFilter q0 n f q = liveFilter q0 n f q' := by
  unfold liveFilter
  rw [h.rrtype, h.bailiwick]

theorem liveFilters_congr {q q' : Query} (h : Agree q q') (q0 : Query) (n : Nat) : ∀ (fs : List Filt) (M : QMach),
    M.next q = M.next q' → (liveFilters q0 n fs M).next q = (liveFilters q0 n fs M).next q'
  | [], _, hM => hM
  | f :: fs, M, hM => liveFilters_congr h q0 n fs _ (filterQ_congr hM (by rw [liveFilter_congr h]))

theorem liveTimeout_congr (q q' q0 : Query) (M : Mach) : (liveTimeout q0 M).next q = (liveTimeout q0 M).next q' := by
  unfold liveTimeout
  generalize q0.lim.active = b
  cases b <;> rfl

theorem liveFill_congr {q q' q0 : Query} (fl : Option Src) {M : QMach} (h : M.next q = M.next q') :
    (liveFill q0 fl M).next q = (liveFill q0 fl M).next q' := by
  cases fl with
  | none => exact h
  | some F => exact ljoinQ_congr h

theorem liveRemove_congr {q q' q0 : Query} (rm : Option (List Src)) {M : QMach} (h : M.next q = M.next q') :
    (liveRemove q0 rm M).next q = (liveRemove q0 rm M).next q' := by
  cases rm with
  | none => exact h
  | some l => exact removeQ_congr h

theorem liveTimes_congr {q q' : Query} (h : Agree q q') (q0 : Query) (rm : Option (List Src)) (fl : Option Src)
    {M : QMach} (hM : M.next q = M.next q') : (liveTimes q0 rm fl M).next q = (liveTimes q0 rm fl M).next q' := by
  cases hb : q0.bounds.any with
  | true =>
    have e : liveTimes q0 rm fl M = _ := if_pos hb
    rw [e]
    exact filterQ_congr (liveFill_congr _ (liveRemove_congr _ (filterQ_congr hM (by rw [h.bounds])))) (by rw [h.bounds])
  | false =>
    have e : liveTimes q0 rm fl M = _ := if_neg (by rw [hb]; simp)
    rw [e]
    exact liveFill_congr _ hM

theorem liveOffset_congr {q q' : Query} (q0 : Query) {M : QMach} (hM : M.next q = M.next q') :
    (liveOffset q0 M).next q = (liveOffset q0 M).next q' := by
  by_cases hb : q0.offset > 0
  · have e : liveOffset q0 M = _ := if_pos hb
    rw [e]
    exact filterQ_congr hM rfl
  · have e : liveOffset q0 M = _ := if_neg hb
    rw [e]
    exact hM

theorem live_source_congr {q q' : Query} (h : Agree q q') (q0 : Query) (S : Sources) (p : Plan) :
    (liveAssemble q0 S p).source.next q = (liveAssemble q0 S p).source.next q' :=
  liveOffset_congr q0 (liveTimes_congr h q0 _ _ (liveFilters_congr h q0 _ _ _ (liveTimeout_congr q q' q0 _)))

theorem live_index_congr {q q' : Query} (h : Agree q q') (q0 : Query) (S : Sources) (p : Plan) :
    (liveAssemble q0 S p).index.next q = (liveAssemble q0 S p).index.next q' :=
  liveFilters_congr h q0 _ _ _ (liveTimeout_congr q q' q0 _)

/-! ## The iterator as opened -/

theorem withFilters_at (q0 : Query) (n : Nat) : ∀ (fs : List Filt) (M : QMach),
    (∀ f ∈ fs, liveFilter q0 n f q0 = f.2) → (liveFilters q0 n fs M).at q0 = withFilters fs (M.at q0)
  | [], _, _ => rfl
  | f :: fs, M, h => by
    unfold liveFilters withFilters
    rw [withFilters_at q0 n fs _ fun f hf => h f (List.mem_cons_of_mem _ hf)]
    show withFilters fs (filterM f.1 (pureF (liveFilter q0 n f q0)) (M.at q0)) = _
    rw [h f List.mem_cons_self]

theorem times_at (q0 : Query) (rm : Option (List Src)) (fl : Option Src) (M : QMach) :
    (liveTimes q0 rm fl M).at q0 = withTimes q0 rm fl (M.at q0) := by
  unfold liveTimes withTimes
  split <;> rcases rm with _ | l <;> rcases fl with _ | F <;> rfl

theorem offset_at (q0 : Query) (M : QMach) : (liveOffset q0 M).at q0 = withOffset q0 (M.at q0) := by
  unfold liveOffset withOffset
  split <;> rfl

theorem timeout_at (q0 : Query) (M : Mach) : (liveTimeout q0 M).at q0 = withTimeout q0 M := by
  unfold liveTimeout withTimeout
  split <;> rfl

/-- At the time of opening, the filters read what they were installed with. -/
theorem plan_filters {q : Query} {p : Plan} (hp : initKind q = .ok p) :
    (∀ f ∈ p.onSource, liveFilter q p.view.lo.length f q = f.2) ∧
    (∀ f ∈ p.onIndex, liveFilter q p.view.lo.length f q = f.2) := by
  have single : ∀ n plus key, ∀ f ∈ singleLabelIf plus key, liveFilter q n f q = f.2 := by
    intro n plus key f hf
    unfold singleLabelIf filtIf at hf
    split at hf
    · simp only [List.mem_singleton] at hf; subst hf; rfl
    · cases hf
  have typed : q.qType = .rrset ∨ q.qType = .rdataRaw → ∀ n, ∀ f ∈ rrtypeIf q, liveFilter q n f q = f.2 := by
    intro hq n f hf
    unfold rrtypeIf filtIf at hf
    split at hf
    · simp only [List.mem_singleton] at hf
      subst hf
      unfold liveFilter
      rcases hq with hq | hq <;> simp [hq]
    · cases hf
  have bailed : ∀ n, ∀ f ∈ bailiwickIf q, liveFilter q n f q = f.2 := by
    intro n f hf
    unfold bailiwickIf at hf
    split at hf
    · rename_i b hb
      simp only [List.mem_singleton] at hf
      subst hf
      unfold liveFilter
      simp [hb]
    · cases hf
  have named : q.qType = .rdataName → ∀ n, liveFilter q n (rdataNameFilter q) q = (rdataNameFilter q).2 := by
    intro hq n
    unfold rdataNameFilter liveFilter
    cases hd : q.doRrtype <;> simp [hq]
  have none : ∀ n, ∀ f ∈ ([] : List Filt), liveFilter q n f q = f.2 := fun n f hf => by cases hf
  unfold initKind at hp
  rcases hq : q.qType with _ | _ | _ | _ | _ | _ | _ <;> rw [hq] at hp <;> simp only at hp
  · unfold initRrset at hp
    split at hp
    · unfold initRrsetLeft at hp
      obtain ⟨k, -, hp⟩ := out_bind hp
      cases hp
      refine ⟨fun f hf => ?_, none _⟩
      simp only [List.mem_append] at hf
      rcases hf with (hf | hf) | hf
      · exact single _ _ _ f hf
      · exact typed (.inl hq) _ f hf
      · exact bailed _ f hf
    · split at hp
      · unfold initRrsetRight at hp
        cases hp
        refine ⟨fun f hf => ?_, fun f hf => single _ _ _ f hf⟩
        simp only [List.mem_append] at hf
        rcases hf with hf | hf
        · exact typed (.inl hq) _ f hf
        · exact bailed _ f hf
      · unfold initRrsetExact at hp
        obtain ⟨rev, -, hp⟩ := out_bind hp
        split at hp
        · cases hp
        · split at hp
          · obtain ⟨k, -, hp⟩ := out_bind hp
            cases hp
            exact ⟨none _, none _⟩
          · cases hp
            exact ⟨fun f hf => bailed _ f hf, none _⟩
  · unfold initRdataName at hp
    split at hp
    · unfold initRdataRight at hp
      cases hp
      refine ⟨fun f hf => ?_, none _⟩
      cases hf with
      | head => exact named hq _
      | tail _ hf => exact single _ _ _ f hf
    · split at hp
      · unfold initRdataLeft at hp
        obtain ⟨k, -, hp⟩ := out_bind hp
        cases hp
        refine ⟨fun f hf => ?_, fun f hf => single _ _ _ f hf⟩
        simp only [List.mem_singleton] at hf
        subst hf
        exact named hq _
      · unfold initRdataExact at hp
        have : ∃ k, p = { onSource := [rdataNameFilter q], view := View.pfx k } := by
          dsimp only at hp
          split at hp
          · obtain ⟨k, -, hp⟩ := out_bind hp
            cases hp
            exact ⟨_, rfl⟩
          · cases hp
            exact ⟨_, rfl⟩
        obtain ⟨k, rfl⟩ := this
        refine ⟨fun f hf => ?_, none _⟩
        simp only [List.mem_singleton] at hf
        subst hf
        exact named hq _
  · unfold initRdataIp at hp
    obtain ⟨_, -, hp⟩ := out_bind hp
    obtain ⟨_, -, hp⟩ := out_bind hp
    obtain ⟨key, -, hp⟩ := out_bind hp
    split at hp
    · obtain ⟨key2, -, hp⟩ := out_bind hp
      obtain ⟨r, -, hp⟩ := out_bind hp
      cases hp
      refine ⟨fun f hf => ?_, none _⟩
      simp only [List.mem_singleton] at hf
      subst hf
      simp [liveFilter, hq, View.lo]
    · cases hp
      refine ⟨fun f hf => ?_, none _⟩
      simp only [List.mem_singleton] at hf
      subst hf
      simp [liveFilter, hq, View.lo]
  · unfold initRdataRaw at hp
    obtain ⟨d, -, hp⟩ := out_bind hp
    cases hp
    exact ⟨fun f hf => typed (.inr hq) _ f hf, none _⟩
  all_goals (cases hp; exact ⟨none _, none _⟩)

/-- With the query it was opened for, the iterator is that of `Verif.Model.Query`. -/
theorem liveAssemble_at {q0 : Query} {p : Plan} (hp : initKind q0 = .ok p) (S : Sources) :
    (liveAssemble q0 S p).at q0 = assemble q0 S p := by
  obtain ⟨h1, h2⟩ := plan_filters hp
  unfold liveAssemble LiveBuilt.at assemble
  rw [offset_at, times_at, withFilters_at _ _ _ _ h1, withFilters_at _ _ _ _ h2, timeout_at, timeout_at]

/-! ## Calls with a query that agrees with the one the iterator was opened for -/

theorem indirectKey_congr {q q' : Query} (h : Agree q q') (tb : UInt8) (kv : KV) :
    indirectKey q tb kv = indirectKey q' tb kv := by
  unfold indirectKey indirectType
  rw [h.doRrtype, h.rrtype]

theorem indirectLoop_congr {q q' : Query} (h : Agree q q') (tb : UInt8) (Y M : Mach) :
    ∀ n i m w, indirectLoop q tb Y M n i m w = indirectLoop q' tb Y M n i m w
  | 0, i, m, w => by unfold indirectLoop; rfl
  | n + 1, i, some s, w => by
    unfold indirectLoop
    simp only [indirectLoop_congr h tb Y M n]
  | n + 1, i, none, w => by
    unfold indirectLoop
    simp only [indirectLoop_congr h tb Y M n, indirectKey_congr h]

theorem queryNext_congr {q q' : Query} (h : Agree q q') (hl : q.lim = q'.lim) (B : Built) (s : QSt B) (w : World) :
    queryNext q B s w = queryNext q' B s w := by
  unfold queryNext
  rw [hl]
  cases s with
  | direct s => rfl
  | indirect tb i m => simp only [indirectLoop_congr h]

theorem to_self {L : LiveBuilt} {q : Query} (s : QSt (L.at q)) : s.to q = s := by cases s <;> rfl

theorem liveNext_agree {q0 q : Query} {L : LiveBuilt} (hs : L.source.next q = L.source.next q0)
    (hi : L.index.next q = L.index.next q0) (s : QSt (L.at q0)) (w : World) :
    (queryNext q (L.at q) (s.to q) w).1 = (queryNext q (L.at q0) s w).1 ∧
    (queryNext q (L.at q) (s.to q) w).2.1.to q0 = (queryNext q (L.at q0) s w).2.1 ∧
    (queryNext q (L.at q) (s.to q) w).2.2 = (queryNext q (L.at q0) s w).2.2 := by
  cases s with
  | direct s =>
    have e : directLoop (L.at q).source ((L.at q).source.size s + 1) s (armTimer q.lim w) =
        directLoop (L.at q0).source ((L.at q0).source.size s + 1) s (armTimer q.lim w) := by
      show directLoop ⟨_, _, L.source.next q, _, _⟩ _ _ _ = directLoop ⟨_, _, L.source.next q0, _, _⟩ _ _ _
      rw [hs]
      rfl
    exact ⟨congrArg (·.1) e, congrArg (fun x : QRes × L.source.St × World => QSt.direct (B := L.at q0) x.2.1) e, congrArg (fun x : QRes × L.source.St × World => disarm x.2.2) e⟩
  | indirect tb i m =>
    have e : indirectLoop q tb (L.at q).index (L.at q).source (2 * (L.at q).index.size i + 3) i m (armTimer q.lim w) =
        indirectLoop q tb (L.at q0).index (L.at q0).source (2 * (L.at q0).index.size i + 3) i m (armTimer q.lim w) := by
      show indirectLoop q tb ⟨_, _, L.index.next q, _, _⟩ ⟨_, _, L.source.next q, _, _⟩ _ _ _ _ =
        indirectLoop q tb ⟨_, _, L.index.next q0, _, _⟩ ⟨_, _, L.source.next q0, _, _⟩ _ _ _ _
      rw [hs, hi]
      rfl
    exact ⟨congrArg (·.1) e, congrArg (fun x : QRes × (L.index.St × Option L.source.St) × World => QSt.indirect (B := L.at q0) tb x.2.1.1 x.2.1.2) e,
      congrArg (fun x : QRes × (L.index.St × Option L.source.St) × World => disarm x.2.2) e⟩

end Verif
