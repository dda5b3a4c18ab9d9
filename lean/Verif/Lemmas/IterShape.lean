import Verif.Spec.IterShape
import Verif.Props.Stats

/-! What the functions on memory return, whatever the heap. -/

namespace Verif
open Spec

/-- Whatever the heap, a result satisfies `P`. -/
def Yields {α : Type} (x : Mem α) (P : α → Prop) : Prop := ∀ h a h', x h = .ok (a, h') → P a

theorem Yields.bind {α β : Type} {x : Mem α} {f : α → Mem β} {P : α → Prop} {Q : β → Prop} (hx : Yields x P)
    (hf : ∀ a, P a → Yields (f a) Q) : Yields (x >>= f) Q := by
  intro h b h' e
  have e' : (do let r ← x h; f r.1 r.2 : Out (β × Heap)) = .ok (b, h') := e
  cases hr : x h with
  | ok r =>
    rw [hr] at e'
    exact hf r.1 (hx h r.1 r.2 hr) r.2 b h' e'
  | fail => rw [hr] at e'; cases e'
  | fault _ => rw [hr] at e'; cases e'

theorem Yields.pure {α : Type} {a : α} {P : α → Prop} (h : P a) : Yields (pure a : Mem α) P := by
  intro _ b _ e
  cases e
  exact h

theorem Yields.trivial {α : Type} (x : Mem α) : Yields x fun _ => True := fun _ _ _ _ => True.intro

theorem Yields.skip {α β : Type} {x : Mem α} {f : α → Mem β} {Q : β → Prop} (hf : ∀ a, Yields (f a) Q) : Yields (x >>= f) Q :=
  (Yields.trivial x).bind fun a _ => hf a

theorem Yields.imp {α : Type} {x : Mem α} {P Q : α → Prop} (h : Yields x P) (hi : ∀ a, P a → Q a) : Yields x Q :=
  fun h' a h'' e => hi a (h h' a h'' e)

theorem yields_mPure {α : Type} (x : Out α) : Yields (mPure x) fun a => x = .ok a := by
  intro h a h' e
  unfold mPure at e
  cases x <;> cases e
  rfl

theorem yields_mTry {α : Type} (x : Out α) : Yields (mTry x) fun a => match a with | some a => x = .ok a | none => x = .fail := by
  intro h a h' e
  unfold mTry at e
  cases x <;> cases e <;> rfl

theorem yields_fault {α : Type} (f : Fault) (P : α → Prop) : Yields (mPure (.fault f)) P := by
  intro h a h' e
  cases e

/-- What the `query_init_*` functions make of an iterator. -/
structure Planned (it it' : QIterMem) (fsrc fidx : List Stage) : Prop where
  q : it'.q = it.q
  source : layers it'.source = layers it.source ++ fsrc.map fun _ => Layer.filter
  index : layers it'.index = layers it.index ++ fidx.map fun _ => Layer.filter
  filters : ∀ g, (it'.filters g).isSome = ((it.filters g).isSome || decide (g ∈ fsrc ++ fidx))
  removal : it'.removeStrict = it.removeStrict
  fill : (it'.fillMerger, it'.self, it'.fill) = (it.fillMerger, it.self, it.fill)

theorem Planned.refl (it : QIterMem) : Planned it it [] [] := ⟨rfl, by simp, by simp, by simp, rfl, rfl⟩

theorem Planned.trans {a b c : QIterMem} {s1 i1 s2 i2 : List Stage} (h1 : Planned a b s1 i1) (h2 : Planned b c s2 i2) :
    Planned a c (s1 ++ s2) (i1 ++ i2) :=
  ⟨h2.q.trans h1.q, by rw [h2.source, h1.source]; simp, by rw [h2.index, h1.index]; simp,
    by intro g; rw [h2.filters, h1.filters, Bool.or_assoc, ← Bool.decide_or]; congr 2; simp only [List.mem_append, eq_iff_iff]; grind,
    h2.removal.trans h1.removal, h2.fill.trans h1.fill⟩

theorem yields_filterIf (c : Bool) (s : Stage) (it : QIterMem) :
    Yields (filterIfMem c s it) fun it' => Planned it it' (if c then [s] else []) [] ∧ it'.keyLen = it.keyLen ∧
      it'.key2Len = it.key2Len ∧ it'.indirect = it.indirect ∧ it'.mIter2 = it.mIter2 := by
  unfold filterIfMem
  cases c with
  | true =>
    refine Yields.skip fun st => .pure ⟨⟨rfl, by simp [layers], by simp, ?_, rfl, rfl⟩, rfl, rfl, rfl, rfl⟩
    intro g
    by_cases hg : g = s <;> simp [hg]
  | false => exact .pure ⟨.refl it, rfl, rfl, rfl, rfl⟩

theorem yields_indexFilterIf (c : Bool) (s : Stage) (it : QIterMem) :
    Yields (indexFilterIfMem c s it) fun it' => Planned it it' [] (if c then [s] else []) ∧ it'.keyLen = it.keyLen ∧
      it'.key2Len = it.key2Len ∧ it'.indirect = it.indirect := by
  unfold indexFilterIfMem
  cases c with
  | true =>
    refine Yields.skip fun st => .pure ⟨⟨rfl, by simp, by simp [layers], ?_, rfl, rfl⟩, rfl, rfl, rfl⟩
    intro g
    by_cases hg : g = s <;> simp [hg]
  | false => exact .pure ⟨.refl it, rfl, rfl, rfl⟩

theorem yields_newKey (it : QIterMem) :
    Yields (newKeyMem it) fun it' => ∃ k, it' = { it with key := some k } := by
  unfold newKeyMem
  exact Yields.skip fun k => .pure ⟨k, rfl⟩

theorem yields_setKey (it : QIterMem) (n : Nat) : Yields (setKeyMem it n) fun it' => it' = { it with keyLen := n } := by
  unfold setKeyMem
  cases it.key with
  | some k => exact Yields.skip fun _ => .pure rfl
  | none => exact yields_fault _ _

theorem yields_done (it : QIterMem) : Yields (doneMem it) fun r => r.1 = it ∧ r.2 ≠ none := by
  unfold doneMem
  exact Yields.skip fun d => .pure ⟨rfl, by simp⟩

/-- The outcome of the `query_init_*` functions against that of the plan `x`. -/
def Inits (it : QIterMem) (x : Out Plan) (r : QIterMem × Option Nat) : Prop :=
  match r.2 with
  | none => x = .fail
  | some _ => ∃ p, x = .ok p ∧ Planned it r.1 (p.onSource.map (·.1)) (p.onIndex.map (·.1)) ∧
      (r.1.keyLen, r.1.key2Len) = viewLengths p.view ∧ r.1.indirect = p.indirect.isSome

theorem Planned.congr {a b : QIterMem} {s i s' i' : List Stage} (h : Planned a b s i) (hs : s = s') (hi : i = i') :
    Planned a b s' i' := hs ▸ hi ▸ h

theorem singleLabel_stages (plus : Bool) (key : Bytes) :
    (singleLabelIf plus key).map (·.1) = if plus then [Stage.filterSingleLabel] else [] := by cases plus <;> rfl
theorem rrtype_stages (q : Query) : (rrtypeIf q).map (·.1) = if q.doRrtype then [Stage.filterRrtype] else [] := by
  unfold rrtypeIf; cases q.doRrtype <;> rfl
theorem bailiwick_stages (q : Query) :
    (bailiwickIf q).map (·.1) = if q.bailiwick.isSome then [Stage.filterBailiwick] else [] := by
  unfold bailiwickIf; cases q.bailiwick <;> rfl
theorem rdataName_stage (q : Query) : (rdataNameFilter q).1 = .filterRrtype := by unfold rdataNameFilter; split <;> rfl

/-- Nothing has been decided yet. -/
structure Fresh (it : QIterMem) : Prop where
  key2 : it.key2Len = 0
  direct : it.indirect = false

theorem init_done {it it1 : QIterMem} {x : Out Plan} (p : Plan) (hx : x = .ok p)
    (h : Planned it it1 (p.onSource.map (·.1)) (p.onIndex.map (·.1))) (hk : (it1.keyLen, it1.key2Len) = viewLengths p.view)
    (hi : it1.indirect = p.indirect.isSome) : Yields (doneMem it1) (Inits it x) := by
  refine (yields_done it1).imp ?_
  rintro ⟨it2, d⟩ ⟨e, hd⟩
  simp only at e hd
  subst e
  cases d with
  | none => exact absurd rfl hd
  | some d => exact ⟨p, hx, h, hk, hi⟩

theorem yields_initRrsetRight (opens : Heap → Bool) {it : QIterMem} (hf : Fresh it) (plus : Bool) :
    Yields (initRrsetRightMem opens it plus) (Inits it (initRrsetRight it.q plus)) := by
  unfold initRrsetRightMem
  refine (yields_setKey _ _).bind ?_
  intro _ e; subst e
  refine (yields_indexFilterIf _ _ _).bind ?_
  intro it1 ⟨h1, k1, l1, d1⟩
  refine Yields.skip fun m => ?_
  refine (yields_filterIf _ _ _).bind ?_
  intro it2 ⟨h2, k2, l2, d2, _⟩
  refine (yields_filterIf _ _ _).bind ?_
  intro it3 ⟨h3, k3, l3, d3, _⟩
  have q1 : it1.q = it.q := h1.q
  have q2 : it2.q = it.q := h2.q.trans q1
  have h0 : Planned it { it with keyLen := 1 + (it.q.name.length - 3) } [] [] := ⟨rfl, by simp, by simp, by simp, rfl, rfl⟩
  have hm : Planned it1 { it1 with mIter2 := m, indirect := true } [] [] := ⟨rfl, by simp, by simp, by simp, rfl, rfl⟩
  refine init_done (it := it) _ rfl ((h0.trans (h1.trans (hm.trans (h2.trans h3)))).congr ?_ ?_) ?_ ?_
  · simp only [List.map_append, rrtype_stages, bailiwick_stages, q1, q2, List.nil_append]
  · simp only [singleLabel_stages, List.append_nil, List.nil_append]
  · have e1 : it3.keyLen = 1 + (it.q.name.length - 3) := by rw [k3, k2]; exact k1
    have e2 : it3.key2Len = 0 := by rw [l3, l2]; exact l1.trans hf.key2
    rw [e1, e2]
    simp [viewLengths]; omega
  · rw [d3, d2]; rfl

theorem planned_keyLen (it : QIterMem) (n : Nat) : Planned it { it with keyLen := n } [] [] :=
  ⟨rfl, by simp, by simp, by simp, rfl, rfl⟩

theorem planned_key (it : QIterMem) (k : Option VecMem) : Planned it { it with key := k } [] [] :=
  ⟨rfl, by simp, by simp, by simp, rfl, rfl⟩

theorem yields_initRrsetLeft {it : QIterMem} (hf : Fresh it) (plus : Bool) :
    Yields (initRrsetLeftMem it plus) (Inits it (initRrsetLeft it.q plus)) := by
  unfold initRrsetLeftMem
  refine (yields_mTry _).bind ?_
  intro r hr
  cases r with
  | none => exact .pure (by show initRrsetLeft _ _ = _; unfold initRrsetLeft; rw [show _ = Out.fail from hr]; rfl)
  | some key =>
    dsimp only at hr ⊢
    refine (yields_setKey _ _).bind ?_
    intro _ e; subst e
    refine (yields_filterIf _ _ _).bind ?_
    intro it1 ⟨h1, k1, l1, d1, _⟩
    refine (yields_filterIf _ _ _).bind ?_
    intro it2 ⟨h2, k2, l2, d2, _⟩
    refine (yields_filterIf _ _ _).bind ?_
    intro it3 ⟨h3, k3, l3, d3, _⟩
    have q1 : it1.q = it.q := h1.q
    have q2 : it2.q = it.q := h2.q.trans q1
    refine init_done (it := it) { onSource := singleLabelIf plus key ++ rrtypeIf it.q ++ bailiwickIf it.q, view := .pfx key } ?_
      (((planned_keyLen it key.length).trans (h1.trans (h2.trans h3))).congr ?_ ?_) ?_ ?_
    · unfold initRrsetLeft; rw [hr]; rfl
    · simp only [List.map_append, singleLabel_stages, rrtype_stages, bailiwick_stages, q1, q2, List.nil_append, List.append_assoc]
    · rfl
    · rw [k3, k2, k1, l3, l2, l1]; simp only [viewLengths, hf.key2]
    · rw [d3, d2, d1]; exact hf.direct

theorem yields_initRrsetExact {it : QIterMem} (hf : Fresh it) :
    Yields (initRrsetExactMem it) (Inits it (initRrsetExact it.q)) := by
  unfold initRrsetExactMem
  refine (yields_mTry _).bind ?_
  intro r hr
  cases r with
  | none =>
    dsimp only at hr ⊢
    refine Yields.skip fun _ => .pure ?_
    show initRrsetExact _ = _
    unfold initRrsetExact; rw [hr]; rfl
  | some rev =>
    dsimp only at hr ⊢
    have hx : initRrsetExact it.q = (if it.q.name.length > maxLenName then .fault .oobWrite
      else if it.q.doRrtype then do
        let key ← addRrtype (0 :: rev) it.q.rrtype
        .ok { view := .pfx (key ++ it.q.bailiwick.getD []) }
      else .ok { onSource := bailiwickIf it.q, view := .pfx (0 :: rev) }) := by
      unfold initRrsetExact; rw [hr]; rfl
    split
    · exact yields_fault _ _
    · next hlen =>
      rw [if_neg hlen] at hx
      cases hd : it.q.doRrtype with
      | true =>
        rw [hd] at hx
        simp only [if_true] at hx ⊢
        refine (yields_mPure _).bind ?_
        intro key hk
        refine (yields_setKey _ _).bind ?_
        intro _ e; subst e
        refine init_done (it := it) { view := .pfx (key ++ it.q.bailiwick.getD []) } ?_ (planned_keyLen it _) ?_ ?_
        · rw [hx, hk]; rfl
        · simp only [viewLengths, hf.key2]
        · exact hf.direct
      | false =>
        rw [hd] at hx
        simp only [Bool.false_eq_true, if_false] at hx ⊢
        refine (yields_setKey _ _).bind ?_
        intro _ e; subst e
        refine (yields_filterIf _ _ _).bind ?_
        intro it1 ⟨h1, k1, l1, d1, _⟩
        refine init_done (it := it) { onSource := bailiwickIf it.q, view := .pfx (0 :: rev) } hx
          (((planned_keyLen it _).trans h1).congr ?_ rfl) ?_ ?_
        · simp only [bailiwick_stages, List.nil_append]
        · rw [k1, l1]; simp only [viewLengths, hf.key2]
        · rw [d1]; exact hf.direct

theorem Inits.after {it it1 : QIterMem} {x : Out Plan} {r : QIterMem × Option Nat}
    (h : Inits it1 x r) (h1 : Planned it it1 [] []) : Inits it x r := by
  unfold Inits at h ⊢
  split
  · next e => rw [e] at h; exact h
  · next e =>
    rw [e] at h
    obtain ⟨p, hx, hp, hk, hi⟩ := h
    exact ⟨p, hx, (h1.trans hp).congr rfl rfl, hk, hi⟩

theorem yields_initRrset (opens : Heap → Bool) {it : QIterMem} (hf : Fresh it) :
    Yields (initRrsetMem opens it) (Inits it (initRrset it.q)) := by
  unfold initRrsetMem
  refine (yields_newKey it).bind ?_
  rintro _ ⟨k, rfl⟩
  have hf' : Fresh { it with key := some k } := ⟨hf.key2, hf.direct⟩
  unfold initRrset
  cases hL : isLeftWildcard it.q.name with
  | some plus =>
    simp only [hL]
    exact (yields_initRrsetLeft hf' _).imp fun r h => h.after (planned_key it _)
  | none =>
    cases hR : isRightWildcard it.q.name with
    | some plus =>
      simp only [hL, hR]
      exact (yields_initRrsetRight opens hf' _).imp fun r h => h.after (planned_key it _)
    | none =>
      simp only [hL, hR]
      exact (yields_initRrsetExact hf').imp fun r h => h.after (planned_key it _)

theorem yields_initRdataName (opens : Heap → Bool) {it : QIterMem} (hf : Fresh it) :
    Yields (initRdataNameMem opens it) (Inits it (initRdataName it.q)) := by
  unfold initRdataNameMem
  refine (yields_filterIf _ _ _).bind ?_
  intro it0 ⟨h0, k0, l0, d0, _⟩
  refine (yields_newKey it0).bind ?_
  rintro _ ⟨k, rfl⟩
  have hp : Planned it { it0 with key := some k } [.filterRrtype] [] := (h0.trans (planned_key it0 (some k))).congr rfl rfl
  have l0' : ({ it0 with key := some k } : QIterMem).key2Len = 0 := l0.trans hf.key2
  have d0' : ({ it0 with key := some k } : QIterMem).indirect = false := d0.trans hf.direct
  revert hp l0' d0'
  generalize ({ it0 with key := some k } : QIterMem) = it1
  intro hp l0' d0'
  have hq : it1.q = it.q := hp.q
  unfold initRdataName
  rw [hq]
  cases hR : isRightWildcard it.q.name with
  | some plus =>
    simp only
    unfold initRdataRightMem
    refine (yields_setKey _ _).bind ?_
    intro _ e; subst e
    refine (yields_filterIf _ _ _).bind ?_
    intro it2 ⟨h2, k2, l2, d2, _⟩
    refine init_done (it := it)
      { onSource := rdataNameFilter it.q :: singleLabelIf plus (2 :: it.q.name.take (it.q.name.length - 3)), view := .pfx (2 :: it.q.name.take (it.q.name.length - 3)) }
      rfl ((hp.trans ((planned_keyLen it1 _).trans h2)).congr ?_ rfl) ?_ ?_
    · simp only [List.map_cons, rdataName_stage, singleLabel_stages, List.nil_append, List.singleton_append]
    · rw [k2, l2, hq]; simp only [viewLengths, l0', List.length_cons, List.length_take, Prod.mk.injEq, and_true]; omega
    · rw [d2]; exact d0'
  | none =>
    cases hL : isLeftWildcard it.q.name with
    | some plus =>
      simp only
      unfold initRdataLeftMem
      rw [hq]
      refine (yields_mTry _).bind ?_
      intro r hr
      cases r with
      | none =>
        dsimp only at hr ⊢
        exact .pure (by show initRdataLeft _ _ = _; unfold initRdataLeft; rw [hr]; rfl)
      | some key =>
        dsimp only at hr ⊢
        refine (yields_setKey _ _).bind ?_
        intro _ e; subst e
        refine (yields_indexFilterIf _ _ _).bind ?_
        intro it2 ⟨h2, k2, l2, d2⟩
        refine Yields.skip fun m => ?_
        have hm : Planned it2 { it2 with mIter2 := m, indirect := true } [] [] := ⟨rfl, by simp, by simp, by simp, rfl, rfl⟩
        refine init_done (it := it) { onIndex := singleLabelIf plus key, onSource := [rdataNameFilter it.q], view := .pfx key, indirect := some 2 } ?_
          ((hp.trans ((planned_keyLen it1 _).trans (h2.trans hm))).congr ?_ ?_) ?_ rfl
        · unfold initRdataLeft; rw [hr]; rfl
        · simp only [List.map_cons, List.map_nil, rdataName_stage, List.append_nil]
        · simp only [singleLabel_stages, List.append_nil, List.nil_append]
        · show (it2.keyLen, it2.key2Len) = _
          rw [k2, l2]; simp only [viewLengths, l0']
    | none =>
      simp only
      unfold initRdataExactMem
      rw [hq]
      refine (yields_mPure _).bind ?_
      intro key hk
      refine (yields_setKey _ _).bind ?_
      intro _ e; subst e
      refine init_done (it := it) { onSource := [rdataNameFilter it.q], view := .pfx key } ?_
        ((hp.trans (planned_keyLen it1 _)).congr ?_ rfl) ?_ ?_
      · unfold initRdataExact
        dsimp only
        split at hk
        · next hc => rw [if_pos hc, hk]; rfl
        · next hc => rw [if_neg hc]; cases hk; rfl
      · simp only [List.map_cons, List.map_nil, rdataName_stage, List.append_nil]
      · simp only [viewLengths, l0']
      · exact d0'

theorem yields_initRdataIp {it : QIterMem} (hf : Fresh it) :
    Yields (initRdataIpMem it) (Inits it (initRdataIp it.q)) := by
  unfold initRdataIpMem
  refine (yields_mPure _).bind ?_
  intro u1 a1
  refine (yields_mPure _).bind ?_
  intro u2 a2
  refine (yields_newKey it).bind ?_
  rintro _ ⟨k, rfl⟩
  refine (yields_mPure _).bind ?_
  intro key hk
  refine (yields_setKey _ _).bind ?_
  intro _ e; subst e
  have hx : initRdataIp it.q = (if it.q.ip2.length > 0 then do
      let key2 ← addRrtype (2 :: it.q.ip2) it.q.rrtype
      let (_, key2) ← incrementKey key2 (key2.length - 1)
      .ok { onSource := [(.filterRrtype, filterRrtypeIp it.q.rrtype key.length)], view := .range key key2 }
    else .ok { onSource := [(.filterRrtype, filterRrtypeIp it.q.rrtype key.length)], view := .pfx key }) := by
    unfold initRdataIp
    rw [a1, Out.ok_bind, a2, Out.ok_bind, hk, Out.ok_bind]
  have h0 : Planned it { it with key := some k, keyLen := key.length } [] [] := ⟨rfl, by simp, by simp, by simp, rfl, rfl⟩
  by_cases hl : it.q.ip2.length > 0
  · rw [if_pos hl] at hx
    rw [if_pos hl]
    refine Yields.skip fun k2 => ?_
    refine (yields_mPure _).bind ?_
    intro key2 hk2
    refine (yields_mPure _).bind ?_
    rintro ⟨b, key3⟩ hk3
    dsimp only
    refine Yields.skip fun _ => ?_
    refine (yields_filterIf _ _ _).bind ?_
    intro it2 ⟨h2, n2, l2, d2, _⟩
    have h1 : Planned it { it with key := some k, keyLen := key.length, key2 := some k2, key2Len := key3.length } [] [] :=
      ⟨rfl, by simp, by simp, by simp, rfl, rfl⟩
    refine init_done (it := it) { onSource := [(.filterRrtype, filterRrtypeIp it.q.rrtype key.length)], view := .range key key3 } ?_
      ((h1.trans h2).congr rfl rfl) ?_ ?_
    · rw [hx, hk2, Out.ok_bind, hk3]; rfl
    · rw [n2, l2]; rfl
    · rw [d2]; exact hf.direct
  · rw [if_neg hl] at hx
    rw [if_neg hl]
    refine (yields_filterIf _ _ _).bind ?_
    intro it2 ⟨h2, n2, l2, d2, _⟩
    refine init_done (it := it) _ hx ((h0.trans h2).congr rfl rfl) ?_ ?_
    · rw [n2, l2]; simp only [viewLengths, hf.key2]
    · rw [d2]; exact hf.direct

theorem yields_initRdataRaw {it : QIterMem} (hf : Fresh it) :
    Yields (initRdataRawMem it) (Inits it (initRdataRaw it.q)) := by
  unfold initRdataRawMem
  refine (yields_newKey it).bind ?_
  rintro _ ⟨k, rfl⟩
  refine (yields_mPure _).bind ?_
  intro d hd
  refine (yields_setKey _ _).bind ?_
  intro _ e; subst e
  refine (yields_filterIf _ _ _).bind ?_
  intro it2 ⟨h2, n2, l2, d2, _⟩
  have h0 : Planned it { it with key := some k, keyLen := 1 + d.length } [] [] := ⟨rfl, by simp, by simp, by simp, rfl, rfl⟩
  refine init_done (it := it) { onSource := rrtypeIf it.q, view := .pfx (2 :: d) } ?_ ((h0.trans h2).congr ?_ rfl) ?_ ?_
  · unfold initRdataRaw; rw [show rdataBytes it.q = _ from hd]; rfl
  · rw [rrtype_stages]; rfl
  · rw [n2, l2]; simp only [viewLengths, hf.key2, List.length_cons, Prod.mk.injEq, and_true]; omega
  · rw [d2]; exact hf.direct

theorem yields_initPlain {it : QIterMem} (hf : Fresh it) {n : Nat} {key : Bytes} (hn : key.length = n) :
    Yields (initPlainMem it n) (Inits it (.ok { view := .pfx key })) := by
  unfold initPlainMem
  refine (yields_newKey it).bind ?_
  rintro _ ⟨k, rfl⟩
  refine (yields_setKey _ _).bind ?_
  intro _ e; subst e
  refine init_done (it := it) { view := .pfx key } rfl ⟨rfl, by simp, by simp, by simp, rfl, rfl⟩ ?_ hf.direct
  simp only [viewLengths, hf.key2, hn]

theorem yields_initKind (opens : Heap → Bool) {it : QIterMem} (hf : Fresh it) :
    Yields (initKindMem opens it) (Inits it (initKind it.q)) := by
  unfold initKindMem initKind
  cases it.q.qType
  · exact yields_initRrset opens hf
  · exact yields_initRdataName opens hf
  · exact yields_initRdataIp hf
  · exact yields_initRdataRaw hf
  · exact yields_initPlain hf rfl
  · exact yields_initPlain hf rfl
  · exact yields_initPlain hf (by cases it.q.hasVType <;> rfl)

/-- The stage of an iterator that removes files. -/
def removalLayer (it : QIterMem) : List Layer := match it.removeStrict with | some r => [.remove r.rm] | none => []

/-- The stage of an iterator that joins. -/
def fillLayer (it : QIterMem) : List Layer :=
  match it.fillMerger with | some p => [.ljoin (p :: it.self :: it.fill)] | none => []

/-- The stages common to all kinds of queries: those put on by `finishMem`. -/
structure Finished (it it' : QIterMem) : Prop where
  source : layers it'.source = layers it.source ++ ((if it.q.bounds.any then Layer.filter :: removalLayer it else []) ++ fillLayer it ++
    (if it.q.bounds.any then [.filter] else []) ++ (if it.q.offset > 0 then [.filter] else []))
  index : layers it'.index = layers it.index
  filters : ∀ g, (it'.filters g).isSome = ((it.filters g).isSome || (it.q.bounds.any && (decide (g = .filterTimePrefilter) || decide (g = .filterTime))) ||
    (decide (it.q.offset > 0) && decide (g = .filterOffset)))
  keys : it'.keyLen = it.keyLen ∧ it'.key2Len = it.key2Len
  indirect : it'.indirect = it.indirect

theorem yields_prefilter (it : QIterMem) :
    Yields (prefilterMem it) fun it' => it'.q = it.q ∧ fillLayer it' = fillLayer it ∧ it'.index = it.index ∧
      layers it'.source = layers it.source ++ (if it.q.bounds.any then Layer.filter :: removalLayer it else []) ∧
      (∀ g, (it'.filters g).isSome = ((it.filters g).isSome || (it.q.bounds.any && decide (g = .filterTimePrefilter)))) ∧
      it'.keyLen = it.keyLen ∧ it'.key2Len = it.key2Len ∧ it'.indirect = it.indirect := by
  unfold prefilterMem
  cases hb : it.q.bounds.any with
  | false => exact .pure ⟨rfl, rfl, rfl, by simp, by simp, rfl, rfl, rfl⟩
  | true =>
    rw [if_pos rfl]
    unfold filterIfMem
    rw [if_pos rfl]
    refine Yields.bind (P := fun it' => ∃ st, it' = { it with
      filters := fun t => if t = .filterTimePrefilter then some st else it.filters t
      source := .filter st.obj st.src it.data it.source }) (Yields.skip fun st => .pure ⟨st, rfl⟩) ?_
    rintro _ ⟨st, rfl⟩
    dsimp only
    have hfl : ∀ g, ((if g = Stage.filterTimePrefilter then some st else it.filters g) : Option StageMem).isSome =
        ((it.filters g).isSome || (true && decide (g = .filterTimePrefilter))) := by
      intro g
      by_cases hg : g = .filterTimePrefilter <;> simp [hg]
    cases hr : it.removeStrict with
    | none => exact .pure ⟨rfl, rfl, rfl, by simp [layers, removalLayer, hr], hfl, rfl, rfl, rfl⟩
    | some r => exact Yields.skip fun _ => .pure ⟨rfl, rfl, rfl, by simp [layers, removalLayer, hr], hfl, rfl, rfl, rfl⟩

theorem yields_fill (it : QIterMem) :
    Yields (fillMem it) fun it' => it'.q = it.q ∧ it'.index = it.index ∧
      layers it'.source = layers it.source ++ fillLayer it ∧
      it'.filters = it.filters ∧ it'.keyLen = it.keyLen ∧ it'.key2Len = it.key2Len ∧ it'.indirect = it.indirect := by
  unfold fillMem
  cases hr : it.fillMerger with
  | none => exact .pure ⟨rfl, rfl, by simp [fillLayer, hr], rfl, rfl, rfl, rfl⟩
  | some r => exact Yields.skip fun _ => Yields.skip fun j => .pure ⟨rfl, rfl, by simp [layers, fillLayer, hr], rfl, rfl, rfl, rfl⟩

theorem yields_finish (opens : Heap → Bool) {it : QIterMem} (hpre : it.filters .filterTimePrefilter = none) (d : Nat) :
    Yields (finishMem opens it d) fun r => ∃ D, r = some D ∧ Finished it D.it := by
  unfold finishMem
  refine (yields_prefilter it).bind ?_
  intro it1 ⟨q1, f1, i1, s1, g1, k1, l1, d1⟩
  refine (yields_fill it1).bind ?_
  intro it2 ⟨q2, i2, s2, g2, k2, l2, d2⟩
  refine (yields_filterIf _ _ _).bind ?_
  intro it3 ⟨h3, k3, l3, d3, _⟩
  refine (yields_filterIf _ _ _).bind ?_
  intro it4 ⟨h4, k4, l4, d4, _⟩
  have hb : (it2.filters .filterTimePrefilter).isSome = it.q.bounds.any := by
    rw [g2, g1, hpre]; simp
  have ho : it3.q.offset = it.q.offset := by rw [h3.q, q2, q1]
  rw [hb] at h3
  rw [ho] at h4
  have fin : Finished it it4 := by
    refine ⟨?_, ?_, ?_, ⟨by rw [k4, k3, k2, k1], by rw [l4, l3, l2, l1]⟩, by rw [d4, d3, d2, d1]⟩
    · rw [h4.source, h3.source, s2, s1, f1]
      cases it.q.bounds.any <;> by_cases h0 : it.q.offset > 0 <;> simp [h0]
    · rw [h4.index, h3.index, i2, i1]; simp
    · intro g
      rw [h4.filters, h3.filters, g2, g1]
      cases it.q.bounds.any <;> by_cases h0 : it.q.offset > 0 <;> cases (it.filters g).isSome <;> cases g <;> simp [h0]
  split
  · refine Yields.skip fun m => .pure ⟨_, rfl, ⟨fin.source, fin.index, fin.filters, fin.keys, fin.indirect⟩⟩
  · exact .pure ⟨_, rfl, fin⟩

/-- An iterator before any stage is put on its sources. -/
structure Bare (B : Blockset) (it : QIterMem) : Prop where
  source : layers it.source = [.base B.source]
  index : layers it.index = [.base B.index]
  filters : ∀ g, it.filters g = none
  fresh : Fresh it

theorem yields_timeouts {B : Blockset} {it : QIterMem} (hb : Bare B it) :
    Yields (timeoutsMem it) fun it' => it'.q = it.q ∧ removalLayer it' = removalLayer it ∧ fillLayer it' = fillLayer it ∧
      layers it'.source = .base B.source :: (if it.q.lim.active then [.timeout] else []) ∧
      layers it'.index = .base B.index :: (if it.q.lim.active then [.timeout] else []) ∧
      it'.filters = it.filters ∧ Fresh it' := by
  unfold timeoutsMem
  cases hl : it.q.lim.active with
  | false =>
    exact .pure ⟨rfl, rfl, rfl, by simp [hb.source], by simp [hb.index], rfl, hb.fresh⟩
  | true =>
    rw [if_pos rfl]
    exact Yields.skip fun t => Yields.skip fun t' => .pure
      ⟨rfl, rfl, rfl, by simp [layers, hb.source], by simp [layers, hb.index], rfl, ⟨hb.fresh.key2, hb.fresh.direct⟩⟩

theorem mem_ops_stage (q : Query) (S : Sources) (p : Plan) (g : Stage) :
    (∃ o ∈ sourceOps q S p ++ indexOps q p, o.stage = some g) ↔
      (g ∈ p.onSource.map (·.1) ++ p.onIndex.map (·.1)) ∨ (q.bounds.any = true ∧ (g = .filterTimePrefilter ∨ g = .filterTime)) ∨
      (q.offset > 0 ∧ g = .filterOffset) ∨ (q.bounds.any = true ∧ S.rm.isSome = true ∧ g = .removeStrict) ∨
      (S.fill.isSome = true ∧ g = .ljoin) := by
  have part : ∀ a b : List PipeOp, (∃ o ∈ a ++ b, o.stage = some g) ↔ (∃ o ∈ a, o.stage = some g) ∨ ∃ o ∈ b, o.stage = some g := by
    intro a b
    simp only [List.mem_append, or_and_right, exists_or]
  have t : (∃ o ∈ (if q.lim.active then [.timeout] else [] : List PipeOp), o.stage = some g) ↔ False := by
    cases q.lim.active <;> simp [PipeOp.stage]
  have fl : ∀ l : List Filt, (∃ o ∈ l.map fun f => PipeOp.filter f.1 f.2, o.stage = some g) ↔ g ∈ l.map (·.1) := by
    intro l
    simp only [List.mem_map]
    constructor
    · rintro ⟨_, ⟨f, hf, rfl⟩, ho⟩
      exact ⟨f, hf, by simpa [PipeOp.stage] using ho⟩
    · rintro ⟨f, hf, rfl⟩
      exact ⟨_, ⟨f, hf, rfl⟩, rfl⟩
  have tp : (∃ o ∈ (if q.bounds.any then [PipeOp.filter .filterTimePrefilter (filterTime q.bounds true)] ++
      (match S.rm with | some l => [.remove l] | none => []) else [] : List PipeOp), o.stage = some g) ↔
      q.bounds.any = true ∧ (g = .filterTimePrefilter ∨ (S.rm.isSome = true ∧ g = .removeStrict)) := by
    cases q.bounds.any <;> cases S.rm <;> simp [PipeOp.stage, eq_comm]
  have lj : (∃ o ∈ (match S.fill with | some R => [.ljoin R] | none => [] : List PipeOp), o.stage = some g) ↔
      S.fill.isSome = true ∧ g = .ljoin := by
    cases S.fill <;> simp [PipeOp.stage, eq_comm]
  have tf : (∃ o ∈ (if q.bounds.any then [PipeOp.filter .filterTime (filterTime q.bounds false)] else [] : List PipeOp), o.stage = some g) ↔
      q.bounds.any = true ∧ g = .filterTime := by
    cases q.bounds.any <;> simp [PipeOp.stage, eq_comm]
  have os : (∃ o ∈ (if q.offset > 0 then [.offset] else [] : List PipeOp), o.stage = some g) ↔ q.offset > 0 ∧ g = .filterOffset := by
    by_cases h0 : q.offset > 0 <;> simp [h0, PipeOp.stage, eq_comm]
  unfold sourceOps indexOps
  rw [part, part, part, part, part, part, part, t, fl, fl, tf, os, List.mem_append]
  refine Iff.trans (or_congr_left (or_congr_left (or_congr_left (or_congr (or_congr_right tp) lj)))) ?_
  grind

theorem Planned.layers {it it' : QIterMem} {a b : List Stage} (h : Planned it it' a b) :
    removalLayer it' = removalLayer it ∧ fillLayer it' = fillLayer it := by
  have hf := h.fill
  simp only [Prod.mk.injEq] at hf
  unfold removalLayer fillLayer
  rw [h.removal, hf.1, hf.2.1, hf.2.2]
  exact ⟨rfl, rfl⟩

theorem yields_common (opens : Heap → Bool) {it : QIterMem} {B : Blockset} (hb : Bare B it) (S : Sources)
    (hrm : removalLayer it = match S.rm with | some _ => [.remove B.remove] | none => [])
    (hfill : fillLayer it = match S.fill with | some _ => [.ljoin B.right] | none => []) :
    Yields (iterCommonMem opens it) fun r => match r with
      | none => initKind it.q = .fail
      | some d => ∃ p, initKind it.q = .ok p ∧ Embodies it.q S B p d.it := by
  unfold iterCommonMem
  refine Yields.skip fun _ => (yields_timeouts hb).bind ?_
  intro it1 ⟨q1, r1, m1, s1, i1, g1, hf⟩
  refine (yields_initKind opens hf).bind ?_
  rintro ⟨it2, d⟩ h2
  cases d with
  | none =>
    dsimp only
    refine Yields.skip fun _ => .pure ?_
    rw [← q1]
    exact h2
  | some d =>
    dsimp only
    obtain ⟨p, hp, hpl, hk, hi⟩ := h2
    rw [q1] at hp
    have hst := (Props.plan_stages hp).2
    have hpre : it2.filters .filterTimePrefilter = none := by
      have := hpl.filters .filterTimePrefilter
      rw [g1, hb.filters, ← List.map_append] at this
      have hn : Stage.filterTimePrefilter ∉ (p.onSource ++ p.onIndex).map (·.1) := fun hm => by
        have := hst _ hm
        simp at this
      rw [decide_eq_false hn] at this
      simpa using this
    refine (yields_finish opens hpre d).imp ?_
    rintro _ ⟨D, rfl, fin⟩
    refine ⟨p, hp, ?_, ?_, ?_, ?_, ?_⟩
    · rw [fin.source, hpl.source, hpl.q, q1, s1, hpl.layers.1, hpl.layers.2, r1, m1, hrm, hfill]
      unfold sourceOps
      cases it.q.lim.active <;> cases it.q.bounds.any <;> by_cases h0 : it.q.offset > 0 <;> rcases S with ⟨_, _, _ | _, _ | _⟩ <;>
        simp [h0, PipeOp.layer, Function.comp_def]
    · rw [fin.index, hpl.index, i1]
      unfold indexOps
      cases it.q.lim.active <;> simp [PipeOp.layer, Function.comp_def]
    · intro g
      rw [fin.filters, hpl.filters, g1, hb.filters, hpl.q, q1]
      rw [mem_ops_stage]
      have hmem := hst g
      rw [List.map_append] at hmem
      cases g <;> simp [filterStages] at hmem ⊢ <;> grind
    · simp only at hk
      rw [fin.keys.1, fin.keys.2, hk]
    · rw [fin.indirect]; exact hi

/-! ## Files of a set -/

/-- The outcome of the decoding functions against that of `x`. -/
def Decoded (x : Out Entry) (r : EntryMem × Bool) : Prop := match r.2 with | true => x = .ok r.1.e | false => x = .fail

theorem yields_decodeValTriplet (m : EntryMem) (val : Bytes) :
    Yields (decodeValTripletMem m val) (Decoded (decodeValTriplet m.e val)) := by
  unfold decodeValTripletMem
  refine Yields.skip fun _ => (yields_mTry _).bind ?_
  rintro (_ | e) h <;> exact .pure h

theorem yields_decodeRdatas (p : Bytes) : ∀ (m : EntryMem), Yields (decodeRdatasMem m p) fun r => match r.2 with
    | true => ∃ ds, decodeRdatas p = .ok ds ∧ r.1.e = { m.e with rdatas := m.e.rdatas ++ ds }
    | false => decodeRdatas p = .fail := by
  induction hn : p.length using Nat.strongRecOn generalizing p with
  | _ n ih =>
    intro m
    unfold decodeRdatasMem decodeRdatas
    split
    · exact .pure ⟨[], rfl, by simp⟩
    · next hp =>
      refine (yields_mTry _).bind ?_
      rintro (_ | ⟨n', len⟩) h
      · exact .pure (by simp only [h])
      · simp only [h]
        split
        · exact .pure rfl
        split
        · exact .pure rfl
        split
        · exact yields_fault _ _
        · refine Yields.skip fun b => Yields.skip fun _ => ?_
          have hl : (p.drop (n' + len)).length < n := by
            have := List.length_pos_iff.mpr hp
            simp only [List.length_drop]
            omega
          refine (ih _ hl _ rfl _).imp ?_
          rintro ⟨m', b'⟩ h'
          cases b' with
          | true =>
            obtain ⟨ds, e, e'⟩ := h'
            exact ⟨_, by rw [e], by rw [e']; simp⟩
          | false => dsimp only at h' ⊢; rw [h']

theorem yields_decodeRrset (m : EntryMem) (buf : Bytes) : Yields (decodeRrsetMem m buf) (Decoded (decodeRrset m.e buf)) := by
  unfold decodeRrsetMem decodeRrset
  refine (yields_mTry _).bind ?_
  rintro (_ | ⟨name, ln⟩) h1
  · exact .pure (by simp only [Decoded, h1]; rfl)
  refine Yields.skip fun _ => Yields.skip fun b => (yields_mTry _).bind ?_
  rintro (_ | ⟨nt, rrtype⟩) h2
  · exact .pure (by simp only [Decoded, h1, h2, Out.ok_bind]; rfl)
  refine (yields_mTry _).bind ?_
  rintro (_ | ⟨bw, lb⟩) h3
  · exact .pure (by simp only [Decoded, h1, h2, h3, Out.ok_bind]; rfl)
  refine Yields.skip fun b => (yields_decodeRdatas _ _).imp ?_
  rintro ⟨m', b'⟩ h
  simp only [Decoded, h1, h2, h3, Out.ok_bind]
  cases b' with
  | true =>
    obtain ⟨ds, e, e'⟩ := h
    dsimp only at e' ⊢
    rw [e, e']
    rfl
  | false => dsimp only at h ⊢; rw [h]; rfl

theorem yields_decodeMap (m : EntryMem) (val : Bytes) (h : m.e.rrtypeMap = none) :
    Yields (decodeMapMem m val) fun m' => m'.e = { m.e with rrtypeMap := if val.length > 0 then some val else none } := by
  unfold decodeMapMem
  split
  · exact Yields.skip fun v => Yields.skip fun _ => .pure rfl
  · refine .pure ?_
    rw [← h]

theorem yields_decodeRdata (m : EntryMem) (buf : Bytes) : Yields (decodeRdataMem m buf) (Decoded (decodeRdata m.e buf)) := by
  unfold decodeRdataMem decodeRdata
  refine Yields.skip fun _ => ?_
  split
  · exact .pure rfl
  refine (yields_mTry _).bind ?_
  rintro (_ | lo) h1
  · exact .pure (by simp only [Decoded, h1]; rfl)
  refine (yields_mTry _).bind ?_
  rintro (_ | hi) h2
  · exact .pure (by simp only [Decoded, h1, h2, Out.ok_bind]; rfl)
  dsimp only
  simp only [h1, h2, Out.ok_bind]
  split
  · exact .pure rfl
  refine (yields_mTry _).bind ?_
  rintro (_ | ⟨nt, rrtype⟩) h3
  · exact .pure (by simp only [Decoded, h3]; rfl)
  simp only [h3, Out.ok_bind]
  split
  · exact .pure rfl
  refine (yields_mTry _).bind ?_
  rintro (_ | ⟨name, ln⟩) h4
  · exact .pure (by simp only [Decoded, h4]; rfl)
  refine Yields.skip fun b => Yields.skip fun b => Yields.skip fun _ => .pure ?_
  simp only [Decoded, h4, Out.ok_bind]

theorem yields_decodeRdataNameRev (m : EntryMem) (buf val : Bytes) (h : m.e.rrtypeMap = none) :
    Yields (decodeRdataNameRevMem m buf val) (Decoded (decodeRdataNameRev m.e buf val)) := by
  unfold decodeRdataNameRevMem decodeRdataNameRev
  refine Yields.skip fun _ => (yields_mTry _).bind ?_
  rintro (_ | rev) h1
  · exact Yields.skip fun b => .pure (by simp only [Decoded, h1]; rfl)
  · refine Yields.skip fun b => ?_
    dsimp only
    refine (yields_decodeMap _ _ ?_).bind ?_
    · exact h
    intro m' h'
    refine .pure ?_
    simp only [Decoded, h1, Out.ok_bind, h']

theorem yields_entryDecode (key val : Bytes) :
    Yields (entryDecodeMem key val) fun r => match r with
      | some m => entryDecode key val = .ok m.e
      | none => entryDecode key val = .fail := by
  cases key with
  | nil => exact .pure rfl
  | cons t buf =>
    unfold entryDecodeMem
    refine Yields.skip fun p => Yields.skip fun v => Yields.bind (P := Decoded (entryDecode (t :: buf) val)) ?_ ?_
    · unfold decodeKindMem entryDecode
      dsimp only
      split
      · refine (yields_decodeRrset _ _).bind ?_
        rintro ⟨m, ok⟩ h
        cases ok with
        | true =>
          have h : decodeRrset _ buf = .ok m.e := h
          rw [h]
          exact yields_decodeValTriplet m val
        | false =>
          have h : decodeRrset _ buf = .fail := h
          rw [h]
          exact .pure rfl
      split
      · unfold decodeRrsetNameFwdMem
        refine Yields.skip fun _ => Yields.skip fun b => (yields_decodeMap _ _ rfl).bind ?_
        intro m' h'
        refine .pure ?_
        simp only [Decoded, decodeRrsetNameFwd, h']
      split
      · refine (yields_decodeRdata _ _).bind ?_
        rintro ⟨m, ok⟩ h
        cases ok with
        | true =>
          have h : decodeRdata _ buf = .ok m.e := h
          rw [h]
          exact yields_decodeValTriplet m val
        | false =>
          have h : decodeRdata _ buf = .fail := h
          rw [h]
          exact .pure rfl
      split
      · exact yields_decodeRdataNameRev _ _ _ rfl
      split
      · unfold decodeTimeRangeMem
        refine Yields.skip fun _ => (yields_mTry _).bind ?_
        rintro (_ | e) h <;> exact .pure h
      split
      · unfold decodeSourceInfoMem
        exact Yields.skip fun _ => Yields.skip fun v => Yields.skip fun _ => .pure rfl
      split
      · unfold decodeVersionMem
        refine Yields.skip fun _ => (yields_mTry _).bind ?_
        rintro (_ | e) h <;> exact .pure h
      · exact .pure rfl
    · rintro ⟨m, ok⟩ h
      cases ok with
      | true => exact .pure h
      | false =>
        unfold entryDestroyMem
        dsimp only
        rw [if_neg (by simp)]
        repeat refine Yields.skip fun _ => ?_
        exact .pure h

theorem yields_qAct (opens : Heap → Bool) (it : QIterMem) (a : QAct) :
    Yields (qActMem opens it a) fun r => r.2.map (·.e) = match a with
      | .deliver key val => (match entryDecode key val with | .ok e => some e | _ => none)
      | _ => none := by
  cases a with
  | step a => exact Yields.skip fun m => .pure rfl
  | index a => exact Yields.skip fun m => .pure rfl
  | scratch => exact Yields.skip fun m => .pure rfl
  | look len =>
    unfold qActMem
    dsimp only
    split
    · exact Yields.skip fun _ => Yields.skip fun _ => .pure rfl
    · exact .pure rfl
  | done =>
    unfold qActMem
    dsimp only
    split
    · exact Yields.skip fun _ => .pure rfl
    · exact .pure rfl
  | deliver key val =>
    unfold qActMem
    refine (yields_entryDecode key val).bind ?_
    rintro (_ | m) h
    · exact .pure (by simp only [h]; rfl)
    · exact .pure (by simp only [h]; rfl)

theorem yields_qActs (opens : Heap → Bool) : ∀ (as : List QAct) (it : QIterMem),
    Yields (qActsMem opens it as) fun r => r.2.map (·.e) = firstEntry as
  | [], _ => .pure rfl
  | a :: as, it => by
    unfold qActsMem
    refine Yields.skip fun _ => (yields_qAct opens it a).bind ?_
    rintro ⟨it', e⟩ h
    cases e with
    | some m =>
      refine .pure ?_
      cases a with
      | deliver key val =>
        simp only [firstEntry, Option.map_some] at h ⊢
        revert h
        cases entryDecode key val <;> simp
      | _ => cases h
    | none =>
      refine (yields_qActs opens as it').imp ?_
      intro r hr
      rw [hr]
      cases a with
      | deliver key val =>
        simp only [firstEntry, Option.map_none] at h ⊢
        revert h
        cases entryDecode key val <;> simp
      | _ => rfl

theorem timeRange_plan : initKind { qType := .timeRange } ≠ .fail := nofun

theorem yields_queryInit (t : QType) : Yields (queryInitMem t) fun m => m.q = { qType := t } := by
  unfold queryInitMem
  refine (yields_mPure _).bind ?_
  intro q hq
  refine Yields.skip fun p => .pure ?_
  unfold queryInit at hq
  split at hq <;> cases hq
  rfl

theorem yields_queryIter (opens : Heap → Bool) (m : QueryMem) (src : List Nat) (M : Mach) :
    Yields (queryIterMem opens m src) fun r => match r with
      | none => initKind m.q = .fail
      | some d => ∃ p, initKind m.q = .ok p ∧ Embodies m.q (plainSources M) ⟨src, src, [], []⟩ p d.it := by
  unfold queryIterMem
  refine Yields.skip fun p => ?_
  exact yields_common opens (B := ⟨src, src, [], []⟩) ⟨rfl, rfl, fun _ => rfl, rfl, rfl⟩ (plainSources M) rfl rfl

theorem yields_lookTimes (opens : Heap → Bool) (b : Bounds) (f : FileMem) :
    Yields (lookTimesMem opens b f) fun r => r = verdict b f := by
  unfold lookTimesMem
  refine (yields_queryInit _).bind ?_
  intro q hq
  refine (yields_queryIter opens q [f.block] (curM [] fun _ _ => false)).bind ?_
  rintro (_ | d) hd
  · rw [hq] at hd
    exact absurd hd timeRange_plan
  dsimp only
  refine Yields.bind (P := fun r => r.2.map (·.e) = firstEntry f.acts) ?_ ?_
  · refine Yields.bind (P := fun r => r.2.map (·.e) = firstEntry f.acts) ?_ ?_
    · unfold iterNextMem
      refine Yields.skip fun _ => (yields_qActs opens f.acts d.it).bind ?_
      rintro ⟨it, e⟩ h
      exact .pure h
    · rintro ⟨d, e⟩ h
      exact .pure h
  · rintro ⟨d, e⟩ h
    refine Yields.skip fun _ => Yields.skip fun _ => Yields.skip fun _ => .pure ?_
    simp only at h
    unfold fenceEntry verdict
    rw [← h]
    cases e <;> rfl

/-- An iterator after files with verdicts were put into its merger and its removal stage. -/
def QIterMem.sorted (it : QIterMem) (fill rm : List Nat) : QIterMem :=
  { it with fill := if it.fillMerger.isSome then it.fill ++ fill else it.fill, removeStrict := it.removeStrict.map fun r => { r with rm := r.rm ++ rm } }

theorem QIterMem.sorted_nil (it : QIterMem) : it.sorted [] [] = it := by
  unfold QIterMem.sorted
  cases it with
  | mk => simp

theorem yields_timeFilter (opens : Heap → Bool) (it : QIterMem) (f : FileMem) :
    Yields (timeFilterMem opens it f) fun r => r.1 = it.sorted (withVerdict it.q.bounds .fill [f]) (withVerdict it.q.bounds .remove [f]) ∧
      r.2 = (verdict it.q.bounds f == .keep) := by
  unfold timeFilterMem
  refine Yields.skip fun _ => (yields_lookTimes opens _ f).bind ?_
  rintro v rfl
  cases hv : verdict it.q.bounds f with
  | keep =>
    refine .pure ⟨?_, rfl⟩
    simp [withVerdict, hv, QIterMem.sorted_nil]
  | fill =>
    dsimp only
    cases hm : it.fillMerger with
    | some p =>
      refine Yields.skip fun _ => .pure ⟨?_, rfl⟩
      simp [withVerdict, hv, QIterMem.sorted, hm]
    | none =>
      refine .pure ⟨?_, rfl⟩
      simp [withVerdict, hv, QIterMem.sorted, hm]
      cases it with
      | mk => simp at hm ⊢; exact hm
  | remove =>
    dsimp only
    cases hm : it.removeStrict with
    | some p =>
      refine Yields.skip fun _ => Yields.skip fun _ => .pure ⟨?_, rfl⟩
      simp [withVerdict, hv, QIterMem.sorted, hm]
    | none =>
      refine .pure ⟨?_, rfl⟩
      simp [withVerdict, hv, QIterMem.sorted, hm]
      cases it with
      | mk => simp at hm ⊢; exact hm

theorem QIterMem.sorted_sorted (it : QIterMem) (a b c d : List Nat) : (it.sorted a b).sorted c d = it.sorted (a ++ c) (b ++ d) := by
  unfold QIterMem.sorted
  cases it.fillMerger <;> cases it.removeStrict <;> simp

theorem withVerdict_cons (b : Bounds) (d : Fence) (f : FileMem) (fs : List FileMem) :
    withVerdict b d (f :: fs) = withVerdict b d [f] ++ withVerdict b d fs := by
  unfold withVerdict
  rw [← List.map_append, ← List.filter_append]
  rfl

theorem yields_timeFilters (opens : Heap → Bool) : ∀ (fs : List FileMem) (it : QIterMem),
    Yields (timeFiltersMem opens it fs) fun r =>
      r.1 = it.sorted (withVerdict it.q.bounds .fill fs) (withVerdict it.q.bounds .remove fs) ∧ r.2 = withVerdict it.q.bounds .keep fs
  | [], it => .pure ⟨(QIterMem.sorted_nil it).symm, rfl⟩
  | f :: fs, it => by
    unfold timeFiltersMem
    refine (yields_timeFilter opens it f).bind ?_
    rintro ⟨it1, keep⟩ ⟨h1, h2⟩
    simp only at h1 h2
    subst h1 h2
    refine (yields_timeFilters opens fs _).bind ?_
    rintro ⟨it2, kept⟩ ⟨h1, h2⟩
    simp only at h1 h2
    refine .pure ⟨?_, ?_⟩
    · dsimp only
      rw [h1, QIterMem.sorted_sorted, withVerdict_cons _ _ f fs, withVerdict_cons _ .remove f fs]
      rfl
    · dsimp only
      rw [h2, withVerdict_cons _ .keep f fs]
      cases hv : verdict it.q.bounds f == Fence.keep <;> simp [withVerdict, hv, QIterMem.sorted]

theorem yields_mergers (it : QIterMem) (hr : it.removeStrict = none) (hf : it.fillMerger = none) :
    Yields (mergersMem it) fun it' => ∃ r m, it' = { it with removeStrict := r, fillMerger := m } ∧
      (r.isSome = (it.q.aggregated && it.q.bounds.any && (it.q.bounds.firstAfter.isSome || it.q.bounds.lastBefore.isSome))) ∧
      m.isSome = (it.q.aggregated && it.q.bounds.any) ∧ ∀ x, r = some x → x.rm = [] := by
  unfold mergersMem
  split
  · next h =>
    rw [h]
    refine Yields.bind (P := fun it' => ∃ r, it' = { it with removeStrict := r } ∧
      (r.isSome = (it.q.bounds.firstAfter.isSome || it.q.bounds.lastBefore.isSome)) ∧ ∀ x, r = some x → x.rm = []) ?_ ?_
    · split
      · next hs =>
        refine Yields.bind (P := fun r => r.rm = []) ?_ ?_
        · unfold removeInitMem
          exact Yields.skip fun _ => Yields.skip fun _ => Yields.skip fun _ => .pure rfl
        · intro r hr
          exact .pure ⟨some r, rfl, by rw [hs]; rfl, by rintro _ ⟨⟩; exact hr⟩
      · next hs => exact .pure ⟨none, by rw [← hr], by simpa using hs, nofun⟩
    · rintro _ ⟨r, rfl, h1, h2⟩
      exact Yields.skip fun _ => Yields.skip fun m => Yields.skip fun _ => .pure ⟨r, some m, rfl, by rw [h1]; simp, rfl, h2⟩
  · next h =>
    refine .pure ⟨none, none, by rw [← hr, ← hf], ?_, ?_, nofun⟩
    · revert h; cases it.q.aggregated <;> cases it.q.bounds.any <;> simp
    · revert h; cases it.q.aggregated <;> cases it.q.bounds.any <;> simp

theorem yields_queryIterFileset (opens : Heap → Bool) (m : QueryMem) (fs : Nat) (files : List FileMem) (S : Sources)
    (hrm : S.rm.isSome = (m.q.aggregated && m.q.bounds.any && (m.q.bounds.firstAfter.isSome || m.q.bounds.lastBefore.isSome)))
    (hfill : S.fill.isSome = (m.q.aggregated && m.q.bounds.any)) :
    Yields (queryIterFilesetMem opens m fs files) fun r => match r with
      | none => initKind m.q = .fail
      | some d => ∃ p f f' g i, initKind m.q = .ok p ∧ (m.q.aggregated = true → f' = f) ∧
          Embodies m.q S ⟨f' :: fs :: i :: withVerdict m.q.bounds .keep files, f :: fs :: i :: withVerdict m.q.bounds .keep files,
            withVerdict m.q.bounds .remove files, g :: i :: withVerdict m.q.bounds .fill files⟩ p d.it := by
  unfold queryIterFilesetMem
  refine Yields.skip fun i => Yields.skip fun _ => Yields.skip fun fopt => (yields_mergers _ rfl rfl).bind ?_
  rintro _ ⟨r, g, rfl, hr, hg, hx⟩
  dsimp only at hr hg
  refine Yields.skip fun _ => Yields.skip fun f => (yields_timeFilters opens files _).bind ?_
  rintro ⟨it, kept⟩ ⟨h1, h2⟩
  simp only at h1 h2
  subst h1 h2
  have hrl : ∀ it' : QIterMem, it'.removeStrict = r.map (fun x => { x with rm := x.rm ++ withVerdict m.q.bounds .remove files }) →
      removalLayer it' = match S.rm with | some _ => [.remove (withVerdict m.q.bounds .remove files)] | none => [] := by
    intro it' e
    rw [← hr] at hrm
    unfold removalLayer
    rw [e]
    revert hrm
    cases S.rm <;> cases r with
    | none => simp
    | some x => simp [hx x rfl]
  have hfl : ∀ it' : QIterMem, it'.fillMerger = g → it'.self = i → it'.fill = (if g.isSome then withVerdict m.q.bounds .fill files else []) →
      fillLayer it' = match S.fill with | some _ => [.ljoin (g.getD 0 :: i :: withVerdict m.q.bounds .fill files)] | none => [] := by
    intro it' e1 e2 e3
    rw [← hg] at hfill
    unfold fillLayer
    rw [e1, e2, e3]
    revert hfill
    cases S.fill <;> cases g <;> simp
  cases ha : m.q.aggregated with
  | true =>
    simp only [QIterMem.sorted, ha, if_pos]
    refine Yields.bind (P := fun it' => it' = _) (.pure rfl) ?_
    rintro _ rfl
    refine Yields.skip fun _ => (yields_common opens (B := ⟨f :: fs :: i :: withVerdict m.q.bounds .keep files, f :: fs :: i :: withVerdict m.q.bounds .keep files,
            withVerdict m.q.bounds .remove files, g.getD 0 :: i :: withVerdict m.q.bounds .fill files⟩) ⟨rfl, rfl, fun _ => rfl, rfl, rfl⟩ S ?_ ?_).imp ?_
    · exact hrl _ rfl
    · exact hfl _ rfl rfl rfl
    · intro d hd
      cases d with
      | none => exact hd
      | some d =>
        obtain ⟨p, hp, he⟩ := hd
        exact ⟨p, f, f, _, i, hp, fun _ => rfl, he⟩
  | false =>
    rw [ha] at hr hg
    simp only [Bool.false_and, Option.isSome_eq_false_iff, Option.isNone_iff_eq_none] at hr hg
    subst hr hg
    simp only [QIterMem.sorted, ha]
    refine Yields.bind (P := fun it' => ∃ f', it' = { self := i, query := m.self, q := m.q, source := .base (f' :: fs :: i :: withVerdict m.q.bounds .keep files), index := .base (f :: fs :: i :: withVerdict m.q.bounds .keep files), fsFilter := some f, fsNoMerge := some f' }) ?_ ?_
    · refine Yields.skip fun _ => Yields.skip fun f' => (yields_timeFilters opens files _).bind ?_
      rintro ⟨it, kept⟩ ⟨h1, h2⟩
      simp only at h1 h2
      subst h1 h2
      exact .pure ⟨f', rfl⟩
    · rintro _ ⟨f', rfl⟩
      refine Yields.skip fun _ => (yields_common opens (B := ⟨f' :: fs :: i :: withVerdict m.q.bounds .keep files, f :: fs :: i :: withVerdict m.q.bounds .keep files,
            withVerdict m.q.bounds .remove files, 0 :: i :: withVerdict m.q.bounds .fill files⟩) ⟨rfl, rfl, fun _ => rfl, rfl, rfl⟩ S ?_ ?_).imp ?_
      · exact hrl _ rfl
      · exact hfl _ rfl rfl rfl
      · intro d hd
        cases d with
        | none => exact hd
        | some d =>
          obtain ⟨p, hp, he⟩ := hd
          exact ⟨p, f, f', _, i, hp, nofun, he⟩

end Verif
