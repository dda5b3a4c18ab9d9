import Verif.Spec.Unaggregated
import Verif.Lemmas.FilesetIndex
import Verif.Props.Dupsort

/-! # Lemmas: what the merger without merge function delivers -/

namespace Verif
open Spec

theorem isFirstRow_iff {cs : List Table} {i : Nat} : isFirstRow cs i = true ↔
    ∃ kv r, cs[i]? = some (kv :: r) ∧ ∀ x y, x :: y ∈ cs → rowLe kv x = true := by
  unfold isFirstRow
  split
  · rename_i kv r h
    rw [h]
    constructor
    · intro h2
      exact ⟨kv, r, rfl, fun x y hxy => List.all_eq_true.mp h2 _ hxy⟩
    · rintro ⟨kv', r', h1, h2⟩
      cases h1
      rw [List.all_eq_true]
      intro c hc
      cases c with
      | nil => rfl
      | cons x y => exact h2 x y hc
  · rename_i h
    constructor
    · intro h2; cases h2
    · rintro ⟨kv, r, h1, -⟩
      exact (h kv r h1).elim

section
variable {P : KV → Prop} (hc : ∀ a b, P a → P b → rowLe a b = true ∨ rowLe b a = true)
  (ht : ∀ a b c, P a → P b → P c → rowLe a b = true → rowLe b c = true → rowLe a c = true)
include hc ht

theorem exists_firstRow : ∀ {cs : List Table}, (∀ x ∈ cs.flatten, P x) → cs.flatten ≠ [] →
    ∃ i, i < cs.length ∧ isFirstRow cs i = true
  | [], _, h => (h rfl).elim
  | c :: cs, hP, h => by
    have refl : ∀ a, P a → rowLe a a = true := fun a ha => (hc a a ha ha).elim id id
    by_cases hn : cs.flatten = []
    · cases c with
      | nil => simp [hn] at h
      | cons kv r =>
        refine ⟨0, by simp, isFirstRow_iff.mpr ⟨kv, r, rfl, fun x y hxy => ?_⟩⟩
        rcases List.mem_cons.mp hxy with e | e
        · cases e; exact refl _ (hP _ (by simp))
        · rw [List.flatten_eq_nil_iff] at hn
          exact absurd (hn _ e) (by simp)
    · have hP' : ∀ x ∈ cs.flatten, P x := fun x hx => hP x (by rw [List.flatten_cons]; exact List.mem_append_right _ hx)
      obtain ⟨i, hi, hm⟩ := exists_firstRow hP' hn
      obtain ⟨kv, r, h1, h2⟩ := isFirstRow_iff.mp hm
      have pkv : P kv := by
        apply hP'
        obtain ⟨hi', hget⟩ := List.getElem?_eq_some_iff.mp h1
        exact List.mem_flatten.2 ⟨kv :: r, by rw [← hget]; exact List.getElem_mem _, by simp⟩
      have keep : (∀ x y, c = x :: y → rowLe kv x = true) →
          ∃ i, i < (c :: cs).length ∧ isFirstRow (c :: cs) i = true := by
        intro h3
        refine ⟨i + 1, by simp; omega, isFirstRow_iff.mpr ⟨kv, r, by simpa using h1, fun x y hxy => ?_⟩⟩
        rcases List.mem_cons.mp hxy with e | e
        · exact h3 x y e.symm
        · exact h2 x y e
      cases c with
      | nil => exact keep fun x y e => by cases e
      | cons kv' r' =>
        have pkv' : P kv' := hP _ (by simp)
        rcases hc kv kv' pkv pkv' with h4 | h4
        · exact keep fun x y e => by cases e; exact h4
        · refine ⟨0, by simp, isFirstRow_iff.mpr ⟨kv', r', rfl, fun x y hxy => ?_⟩⟩
          rcases List.mem_cons.mp hxy with e | e
          · cases e; exact refl _ pkv'
          · exact ht _ _ _ pkv' pkv (hP' _ (List.mem_flatten.2 ⟨_, e, by simp⟩)) h4 (h2 x y e)

theorem interleave_spec (pick : List Table → Nat) :
    ∀ (n : Nat) (cs : List Table), (∀ x ∈ cs.flatten, P x) → cs.flatten.length < n →
      ∃ T, interleave pick n cs = .ok T ∧ T.Perm cs.flatten ∧
        ∀ R : KV → KV → Prop, (∀ a b, rowLe a b = true → R a b) → (∀ a b c, P a → P b → P c → R a b → R b c → R a c) →
          (∀ c ∈ cs, c.Pairwise R) → T.Pairwise R
  | 0, cs, _, hn => by omega
  | n + 1, cs, hP, hn => by
    by_cases he : cs.flatten = []
    · exact ⟨[], by simp only [interleave, he, List.isEmpty_nil, if_true], by rw [he], fun _ _ _ _ => .nil⟩
    · obtain ⟨i0, hi0, hf0⟩ := exists_firstRow hc ht hP he
      have hch : ∃ i, chooseFirst pick cs = some i ∧ isFirstRow cs i = true := by
        unfold chooseFirst
        split
        · rename_i h; exact ⟨_, rfl, h⟩
        · cases hx : (List.range cs.length).find? (isFirstRow cs) with
          | none =>
            rw [List.find?_eq_none] at hx
            exact absurd hf0 (hx i0 (List.mem_range.mpr hi0))
          | some j => exact ⟨j, rfl, List.find?_some hx⟩
      obtain ⟨i, h1, h2⟩ := hch
      obtain ⟨kv, r, h3, h4⟩ := isFirstRow_iff.mp h2
      obtain ⟨hi, hget⟩ := List.getElem?_eq_some_iff.mp h3
      have hcs : cs = cs.take i ++ (kv :: r) :: cs.drop (i + 1) := by
        rw [← hget, List.getElem_cons_drop, List.take_append_drop]
      have hmem : kv :: r ∈ cs := by rw [← hget]; exact List.getElem_mem hi
      have hp : cs.flatten.Perm (kv :: (cs.set i r).flatten) := by
        rw [List.set_eq_take_append_cons_drop, if_pos hi]
        conv => lhs; rw [hcs]
        simp only [List.flatten_append, List.flatten_cons, List.cons_append]
        exact List.perm_middle
      obtain ⟨T, t1, t2, t3⟩ := interleave_spec pick n (cs.set i r)
        (fun x hx => hP x (hp.mem_iff.mpr (List.mem_cons_of_mem _ hx)))
        (by have := hp.length_eq; rw [List.length_cons] at this; omega)
      refine ⟨kv :: T, ?_, (t2.cons kv).trans hp.symm, fun R hR hT hS => ?_⟩
      · have : cs.flatten.isEmpty = false := by
          cases h : cs.flatten with
          | nil => exact absurd h he
          | cons => rfl
        rw [interleave, this]
        simp only [Bool.false_eq_true, if_false, h1, h3, t1, Out.ok_bind]
      · refine List.pairwise_cons.2 ⟨fun x hx => ?_, t3 R hR hT fun c hc' => ?_⟩
        · obtain ⟨c, hc', hxc⟩ := List.mem_flatten.1 (hp.mem_iff.2 (List.mem_cons_of_mem _ (t2.mem_iff.1 hx)))
          cases c with
          | nil => cases hxc
          | cons y ys =>
            rcases List.mem_cons.1 hxc with rfl | h
            · exact hR _ _ (h4 _ _ hc')
            · have hy : ∀ z ∈ y :: ys, P z := fun z hz => hP z (List.mem_flatten.2 ⟨_, hc', hz⟩)
              exact hT _ _ _ (hP kv (List.mem_flatten.2 ⟨_, hmem, by simp⟩)) (hy y (by simp)) (hy x (by simp [h])) (hR _ _ (h4 _ _ hc')) ((List.pairwise_cons.1 (hS _ hc')).1 _ h)
        · rcases List.mem_or_eq_of_mem_set hc' with h | rfl
          · exact hS c h
          · exact (List.pairwise_cons.1 (hS _ hmem)).2
end

/-! ## The order of records -/

theorem obsOf_value {x : Rec} {o : Obs} (h : obsOf x = some o) : x.value = o.value := by
  cases x <;> simp [obsOf] at h <;> rw [← h] <;> rfl

theorem rowLe_row {x y : Rec} (hx : x.legal) (hy : y.legal) : rowLe x.row y.row = true ↔ RecLe x y := by
  unfold rowLe rowCmp RecLe
  simp only [Rec.row]
  rcases lexLt_total x.key y.key with h | h | h
  · simp [h]
  · simp only [h, lexLt_irrefl, Bool.false_eq_true, if_false, true_and, false_or]
    by_cases ht : y.key.head? = some 0 ∨ y.key.head? = some 2
    · obtain ⟨o, ho, hv⟩ := timed_key (h ▸ ht)
      obtain ⟨p, hp, hw⟩ := timed_key ht
      rw [hv, hw, Props.dupsort_eq ht (obsOf_legal hx ho) (obsOf_legal hy hp), ho, hp]
      simp only [Option.some.injEq]
      generalize hc : (if o.first < p.first then Ordering.lt else if o.first > p.first then Ordering.gt
        else if o.last < p.last then Ordering.lt else if o.last > p.last then Ordering.gt else Ordering.eq) = c
      have key : c ≠ .gt ↔ TimesLe o p := by
        rw [← hc]
        unfold TimesLe
        repeat' split
        all_goals (simp; try omega)
      constructor
      · rintro h _ _ rfl rfl
        exact key.1 (by rintro rfl; cases h)
      · intro h
        have := key.2 (h o p rfl rfl)
        cases c <;> first | rfl | exact absurd rfl this
    · have hn : obsOf y = none := by
        cases y <;> first | rfl | (exfalso; apply ht; simp [Rec.key, RRset.key, RR.key])
      rw [hn]
      have : dupsortFunc y.key x.value y.value = .ok .eq := by
        unfold dupsortFunc
        cases hk : y.key with
        | nil => rfl
        | cons t ts =>
          simp only
          rw [if_neg]
          rw [hk] at ht
          simp only [List.head?_cons, Option.some.injEq] at ht
          intro h
          apply ht
          rcases h with h | h
          · left; exact UInt8.toNat_inj.1 h
          · right; exact UInt8.toNat_inj.1 h
      rw [this]; simp
  · have e : lexLt x.key y.key = false := lexLt_asymm h
    simp only [e, h, Bool.false_eq_true, if_false, if_true, false_or, false_iff]
    rintro ⟨h', -⟩
    rw [h', lexLt_irrefl] at h; cases h

theorem Spec.RecLe.trans {x y z : Rec} (h : RecLe x y) (h' : RecLe y z) :
    RecLe x z := by
  rcases h with h | ⟨e, h⟩
  · rcases h' with h' | ⟨e', -⟩
    · exact .inl (lexLt_trans h h')
    · exact .inl (e' ▸ h)
  · rcases h' with h' | ⟨e', h'⟩
    · exact .inl (e ▸ h')
    · refine .inr ⟨e.trans e', fun o p ho hp => ?_⟩
      have ht : z.key.head? = some 0 ∨ z.key.head? = some 2 := by
        cases z <;> simp [obsOf] at hp
        · exact .inl rfl
        · exact .inr rfl
      obtain ⟨m, hm, -⟩ := timed_key (e'.symm ▸ ht)
      have h1 := h o m ho hm
      have h2 := h' m p hm hp
      unfold TimesLe at h1 h2 ⊢
      omega

theorem Spec.RecLe.total {x y : Rec} : RecLe x y ∨ RecLe y x := by
  unfold RecLe TimesLe
  rcases lexLt_total x.key y.key with h | h | h
  · exact .inl (.inl h)
  · cases ho : obsOf x with
    | none => exact .inl (.inr ⟨h, by simp⟩)
    | some o =>
      cases hp : obsOf y with
      | none => exact .inl (.inr ⟨h, by simp⟩)
      | some p =>
        by_cases hle : o.first < p.first ∨ o.first = p.first ∧ o.last ≤ p.last
        · left; right; refine ⟨h, ?_⟩
          rintro _ _ ⟨⟩ ⟨⟩; exact hle
        · right; right; refine ⟨h.symm, ?_⟩
          rintro _ _ ⟨⟩ ⟨⟩; omega
  · exact .inr (.inl h)

/-- A row of a legal record. -/
def RecRow (kv : KV) : Prop := ∃ x : Rec, x.legal ∧ kv = x.row

/-- The merger without merge function delivers all records in order. -/
theorem unaggregated_recs {files : List Src} {recs : Src → List Rec}
    (hf : ∀ f ∈ files, f.rows = rowsOf (recs f) ∧ Stored (recs f)) (hs : ∀ f ∈ files, StrictSorted f.rows)
    (pick : List Table → Nat) :
    ∃ Vs, unaggregated pick (files.map (·.rows)) = .ok (rowsOf Vs) ∧ Stored Vs ∧ Vs.Perm (files.flatMap recs) ∧
      Vs.Pairwise RecLe := by
  have e : (files.map (·.rows)).flatten = (files.flatMap recs).map Rec.row := by
    clear hs
    induction files with
    | nil => rfl
    | cons f fs ih =>
      rw [List.map_cons, List.flatten_cons, List.flatMap_cons, List.map_append,
        ih fun g hg => hf g (List.mem_cons_of_mem _ hg), (hf f List.mem_cons_self).1]
      rfl
  have hL : ∀ x ∈ files.flatMap recs, x.legal := by
    intro x hx
    obtain ⟨f, h, hx⟩ := List.mem_flatMap.1 hx
    exact (hf f h).2.legal x hx
  have hP : ∀ kv ∈ (files.map (·.rows)).flatten, RecRow kv := by
    rw [e]
    intro kv hkv
    obtain ⟨x, hx, rfl⟩ := List.mem_map.1 hkv
    exact ⟨x, hL x hx, rfl⟩
  have trans : ∀ a b c, RecRow a → RecRow b → RecRow c → rowLe a b = true → rowLe b c = true → rowLe a c = true := by
    rintro _ _ _ ⟨x, hx, rfl⟩ ⟨y, hy, rfl⟩ ⟨z, hz, rfl⟩ h h'
    exact (rowLe_row hx hz).2 (.trans ((rowLe_row hx hy).1 h) ((rowLe_row hy hz).1 h'))
  obtain ⟨T, h1, h2, h3⟩ := interleave_spec (P := RecRow)
    (by
      rintro _ _ ⟨x, hx, rfl⟩ ⟨y, hy, rfl⟩
      rw [rowLe_row hx hy, rowLe_row hy hx]; exact RecLe.total)
    trans pick _ _ hP (Nat.lt_succ_self _)
  have h4 := h3 (fun a b => rowLe a b = true) (fun _ _ h => h) trans (by
    intro c hc
    obtain ⟨f, hf', rfl⟩ := List.mem_map.1 hc
    refine (hs f hf').imp fun {a b} hab => ?_
    unfold rowLe rowCmp
    rw [if_pos hab])
  rw [e] at h2
  obtain ⟨Vs, v1, rfl⟩ := perm_map h2.symm
  have hV : ∀ x ∈ Vs, x.legal := fun x hx => hL x (v1.mem_iff.2 hx)
  have h5 : Vs.Pairwise RecLe := (List.pairwise_map.1 h4).imp_of_mem fun ha hb h => (rowLe_row (hV _ ha) (hV _ hb)).1 h
  refine ⟨Vs, h1, ⟨hV, ?_⟩, v1.symm, h5⟩
  exact List.pairwise_map.2 (h5.imp fun {a b} h => lexLe_iff.2 (h.imp id (fun h => h.1)))

/-! ## Files that are left out have nothing to contribute -/

theorem Failing.out {b : Bounds} {o : Obs} (h : Failing b o) : inBounds b o = false := by
  rcases b with ⟨fb, fa, lb, la⟩
  rcases h with ⟨x, rfl, h⟩ | ⟨x, rfl, h⟩
  · simp only [inBounds, Option.all_some, Bool.and_eq_false_iff, decide_eq_false_iff_not]; omega
  · simp only [inBounds, Option.all_some, Bool.and_eq_false_iff, decide_eq_false_iff_not]; omega

theorem Lacking.out {b : Bounds} {o : Obs} (h : Lacking b o) : inBounds b o = false := by
  rcases b with ⟨fb, fa, lb, la⟩
  rcases h with ⟨x, rfl, h⟩ | ⟨rfl, x, rfl, h⟩
  · simp only [inBounds, Option.all_some, Bool.and_eq_false_iff, decide_eq_false_iff_not]; omega
  · simp only [inBounds, Option.all_some, Bool.and_eq_false_iff, decide_eq_false_iff_not]; omega

theorem left_out {b : Bounds} {d : Fence} {f : Src} (h : FileOk b d f) (hd : d ≠ .keep) {Ts : List Rec}
    (hr : f.rows = rowsOf Ts) (hS : Stored Ts) {x : Rec} (hx : x ∈ Ts) {o : Obs} (ho : obsOf x = some o) :
    inBounds b o = false := by
  have hh : x.key.head? = some 0 ∨ x.key.head? = some 2 := by
    cases x <;> simp [obsOf] at ho
    · exact .inl rfl
    · exact .inr rfl
  obtain ⟨p, hp, e, h1, h2⟩ := h.2 x.key x.value (by rw [hr]; exact List.mem_map.2 ⟨x, hx, rfl⟩) hh
  have : p = o := by rw [← obsIn_value hp, ← e, obsOf_value ho, obsIn_value (obsOf_legal (hS.legal x hx) ho)]
  subst this
  cases d with
  | keep => exact absurd rfl hd
  | fill => exact (h2 rfl).out
  | remove => exact (h1 rfl).out

section
variable {ws : List Nat} {files K L R : List Src} {recs : Src → List Rec} {b : Bounds}

theorem in_kept_of_bounds (hf : ∀ f ∈ files, FileOf ws f (recs f)) (hG : Groups b files K L R) {f : Src} (hm : f ∈ files)
    {x : Rec} (hx : x ∈ recs f) {o : Obs} (ho : obsOf x = some o) (hb : inBounds b o = true) : f ∈ K := by
  have := hG.perm.mem_iff.1 hm
  simp only [List.mem_append] at this
  rcases this with (h | h) | h
  · exact h
  · rw [left_out (hG.fill f h) (by decide) (hf f hm).rows (hf f hm).stored hx ho] at hb; cases hb
  · rw [left_out (hG.rm f h) (by decide) (hf f hm).rows (hf f hm).stored hx ho] at hb; cases hb

/-- Only records within the bounds are asked for. -/
def Bounded (b : Bounds) (want : Rec → Bool) : Prop :=
  ∀ x, want x = true → ∃ o, obsOf x = some o ∧ inBounds b o = true

theorem kept_filter (hf : ∀ f ∈ files, FileOf ws f (recs f)) (hG : Groups b files K L R) {want : Rec → Bool}
    (hw : Bounded b want) : ((K.flatMap recs).filter want).Perm ((files.flatMap recs).filter want) := by
  have hp := (hG.perm.flatMap_right recs).filter want
  rw [List.flatMap_append, List.flatMap_append, List.filter_append, List.filter_append] at hp
  have nil : ∀ M : List Src, (∀ f ∈ M, f ∈ files ∧ ∃ d, d ≠ .keep ∧ FileOk b d f) → (M.flatMap recs).filter want = [] := by
    intro M hM
    rw [List.filter_eq_nil_iff]
    intro x hx hwx
    obtain ⟨f, h, hx⟩ := List.mem_flatMap.1 hx
    obtain ⟨hm, d, hd, hok⟩ := hM f h
    obtain ⟨o, ho, hb⟩ := hw x hwx
    rw [left_out hok hd (hf f hm).rows (hf f hm).stored hx ho] at hb; cases hb
  rw [nil L fun f h => ⟨hG.perm.mem_iff.2 (by simp [h]), .fill, by decide, hG.fill f h⟩,
    nil R fun f h => ⟨hG.perm.mem_iff.2 (by simp [h]), .remove, by decide, hG.rm f h⟩] at hp
  simpa using hp.symm

end

/-- The two file sets of an unaggregated query. -/
theorem loose_total {ws : List Nat} {files : List Src} {recs : Src → List Rec} (hU : LooseFiles ws files recs)
    (b : Bounds) (env : FsEnv) (w w' : World) :
    ∃ Xs Vs K L R K' L' R', looseFiles b env w w' files = .ok ⟨rowsOf Xs, rowsOf Vs⟩ ∧
      Groups b files K L R ∧ aggregated env.pickKept (K.map (·.rows)) = .ok (rowsOf Xs) ∧ Stored Xs ∧
      (∀ z ∈ Xs, ∀ f ∈ K, ∀ x ∈ recs f, x.key = z.key → Covers z x) ∧
      Groups b files K' L' R' ∧ Stored Vs ∧ Vs.Perm (K'.flatMap recs) ∧ Vs.Pairwise RecLe := by
  have tf : ∀ f ∈ files, TruthfulFile f := fun f h => (hU.file f h).truthfulFile
  obtain ⟨ds, h1, h2, h3⟩ := fenceAll_spec tf b w
  obtain ⟨ds', h1', h2', h3'⟩ := fenceAll_spec tf b w'
  have sub : ∀ {ds : List (Fence × Src)}, ds.map (·.2) = files → ∀ d, ∀ f ∈ chosen d ds, f ∈ files := by
    intro ds h2 d f h
    rw [← h2]; exact List.mem_map.2 ⟨_, mem_chosen h, rfl⟩
  obtain ⟨Xs, x1, x2, -, x4⟩ := aggregated_recs hU.small (files := chosen .keep ds) (recs := recs) (fun f h => by
    have := hU.file f (sub h2 _ f h)
    exact ⟨this.rows, this.stored, this.mergeable⟩) env.pickKept
  obtain ⟨Vs, v1, v2, v3, v4⟩ := unaggregated_recs (files := chosen .keep ds') (recs := recs) (fun f h => by
    have := hU.file f (sub h2' _ f h)
    exact ⟨this.rows, this.stored⟩) (fun f h => hU.strict f (sub h2' _ f h)) env.pickFill
  have grp : ∀ {ds : List (Fence × Src)}, ds.map (·.2) = files → (∀ x ∈ ds, FileOk b x.1 x.2) →
      Groups b files (chosen .keep ds) (chosen .fill ds) (chosen .remove ds) := fun h2 h3 =>
    ⟨by rw [← h2]; exact chosen_perm _, fun f hf => h3 _ (mem_chosen hf), fun f hf => h3 _ (mem_chosen hf),
      fun f hf => h3 _ (mem_chosen hf)⟩
  refine ⟨Xs, Vs, _, _, _, _, _, _, ?_, grp h2 h3, x1, x2, x4, grp h2' h3', v2, v3, v4⟩
  rw [looseFiles, h1, Out.ok_bind, x1, Out.ok_bind, h1', Out.ok_bind, v1, Out.ok_bind]

/-! ## Behind the sources, the query does not look at the switch -/

theorem indirectLoop_aggregated (q : Query) (b : Bool) (tb : UInt8) (I M : Mach) (n : Nat) (i : I.St) (m : Option M.St)
    (w : World) : indirectLoop { q with aggregated := b } tb I M n i m w = indirectLoop q tb I M n i m w := by
  have e : ∀ kv, indirectKey { q with aggregated := b } tb kv = indirectKey q tb kv := fun _ => rfl
  induction n generalizing i m w with
  | zero => rfl
  | succ n ih => cases m <;> simp only [indirectLoop, ih, e]

theorem queryNext_aggregated (q : Query) (b : Bool) (B : Built) (s : QSt B) (w : World) :
    queryNext { q with aggregated := b } B s w = queryNext q B s w := by
  cases s with
  | direct s => rfl
  | indirect tb i m => simp only [queryNext, indirectLoop_aggregated]

theorem queryRun_aggregated (q : Query) (b : Bool) (B : Built) (ls : List Limits) (s : QSt B) (w : World) :
    queryRun { q with aggregated := b } B ls s w = queryRun q B ls s w := by
  induction ls generalizing s w with
  | nil => rfl
  | cons l ls ih =>
    have e := queryNext_aggregated { q with lim := l } b B s w
    simp only [queryRun, ih]
    rw [show ({ ({ q with aggregated := b } : Query) with lim := l } : Query) =
      { ({ q with lim := l } : Query) with aggregated := b } from rfl, e]

theorem delivers_aggregated {S : Sources} {q : Query} {E : List Rec} (b : Bool) (h : DeliversFrom S q E) :
    DeliversFrom S { q with aggregated := b } E := by
  obtain ⟨p, hp, h⟩ := h
  refine ⟨p, hp, fun ls w hw hl => ?_⟩
  have := h ls w hw hl
  simp only at this ⊢
  rw [← queryRun_aggregated q b] at this
  exact this

end Verif
