import Verif.Lemmas.Heap
import Verif.Spec.QueryMem

/-! What the setters do to the memory of a query. -/

namespace Verif
open Spec

/-- The blocks of a query whose error text is `e`. -/
def QueryMem.own (m : QueryMem) (e : Bytes) : List (Nat × Bytes) :=
  (m.self, []) :: (blk m.rdata (m.q.rdata.getD []) ++ blk m.name m.q.name ++
    blk m.bailiwick (m.q.bailiwick.getD []) ++ blk m.err e)

/-- What a setter leaves of the error text: the same, or a new one. -/
inductive Wrote (C : Bytes → Prop) (S : Prop) (m : QueryMem) (e : Bytes) (b : Bool) (m' : QueryMem) (e' : Bytes) : Prop
  | kept : m'.err = m.err → e' = e → (b = false → S) → Wrote C S m e b m' e'
  | wrote : m'.err.isSome → b = false → C e' → Wrote C S m e b m' e'

/-- A setter of the model with memory does what the one without does. -/
def Sets (x : Mem (QueryMem × Bool)) (m : QueryMem) (r : Query × Bool) (C : Bytes → Prop) (S : Prop) : Prop :=
  ∀ e F, Does x (m.own e ++ F) fun a R' => ∃ e', R'.Perm (a.1.own e' ++ F) ∧ a.1.q = r.1 ∧ a.2 = r.2 ∧
    a.1.self = m.self ∧ Wrote C S m e a.2 a.1 e'

theorem does_setErr' (m : QueryMem) (text e : Bytes) (G : List (Nat × Bytes)) :
    Does (setErrMem m text) (blk m.err e ++ G) fun a R' => ∃ p, a = { m with err := some p } ∧ R' = (p, text) :: G := by
  unfold setErrMem
  refine (does_free_blk _ _ _).bind ?_
  rintro _ _ rfl
  refine (does_alloc _ _).bind ?_
  rintro p _ ⟨rfl, -⟩
  exact .pure ⟨p, rfl, rfl⟩

theorem does_setErr (m : QueryMem) (text e : Bytes) (F : List (Nat × Bytes)) :
    Does (setErrMem m text) (m.own e ++ F) fun a R' => ∃ p, a = { m with err := some p } ∧
      R'.Perm (a.own text ++ F) := by
  refine .perm (R' := blk m.err e ++ ((m.self, []) :: (blk m.rdata (m.q.rdata.getD []) ++ blk m.name m.q.name ++
    blk m.bailiwick (m.q.bailiwick.getD []) ++ F))) (by unfold QueryMem.own; blocks) ?_
  refine (does_setErr' m text e _).weaken ?_
  rintro _ _ ⟨p, rfl, rfl⟩
  refine ⟨p, rfl, ?_⟩
  unfold QueryMem.own
  simp only [blk]
  blocks

theorem does_loadAddress (L : Libs) (m : QueryMem) (data e : Bytes) (F : List (Nat × Bytes)) :
    Does (loadAddressMem L m data) (m.own e ++ F) fun a R' =>
      (IsAddress L data ∧ ∃ ad, loadAddress L data = (ad, true) ∧ addressLength L data = some ad.length ∧
        a = (m, ad, true) ∧ R' = m.own e ++ F) ∨
      (¬ IsAddress L data ∧ loadAddress L data = ([], false) ∧
        ∃ p, a = ({ m with err := some p }, [], false) ∧ R'.Perm (a.1.own (lit "inet_pton() failed") ++ F)) := by
  unfold loadAddressMem loadAddress IsAddress addressLength
  split
  · next ad h => exact .pure (.inl ⟨.inl (by rw [h]; rfl), ad, by simp [h], by simp [h], rfl, rfl⟩)
  · next h4 =>
    split
    · next ad h => exact .pure (.inl ⟨.inr (by rw [h]; rfl), ad, by simp [h, h4], by simp [h, h4], rfl, rfl⟩)
    · next h6 =>
      refine (does_setErr m _ e F).bind ?_
      rintro m' R' ⟨p, rfl, hp⟩
      exact .pure (.inr ⟨by rw [h4, h6]; simp, by simp [h4, h6], p, rfl, hp⟩)

theorem does_loadName (L : Libs) (m : QueryMem) (old : Option Nat) (c : Bytes) (s : Option Bytes) (cs : Bool)
    (e : Bytes) (G : List (Nat × Bytes)) :
    Does (loadNameMem L m old s cs) (blk old c ++ (blk m.err e ++ G)) fun a R' =>
      (∃ p n, a = (m, p, n, true) ∧ loadName L s cs = (n, true) ∧ R' = blk p (n.getD []) ++ (blk m.err e ++ G) ∧
        (n = none → p = none) ∧ (s = none ↔ n = none)) ∨
      (∃ p t, a = ({ m with err := some p }, none, none, false) ∧ loadName L s cs = (none, false) ∧
        R' = (p, lit "wdns_str_to_name() failed") :: G ∧ s = some t ∧ L.strToName t = none) := by
  unfold loadNameMem loadName
  refine (does_free_blk _ _ _).bind ?_
  rintro _ _ rfl
  split
  · exact .pure (.inl ⟨none, none, rfl, rfl, rfl, fun _ => rfl, by simp⟩)
  · next t =>
    split
    · next h =>
      refine (does_setErr' m _ e G).bind ?_
      rintro _ _ ⟨p, rfl, rfl⟩
      exact .pure (.inr ⟨p, t, rfl, by simp [h], rfl, rfl, h⟩)
    · next n h =>
      refine (does_alloc _ _).bind ?_
      rintro p _ ⟨rfl, -⟩
      refine .pure (.inl ⟨some p, some (if cs = true then n else L.downcase n), rfl, by simp [h], rfl, nofun, nofun, nofun⟩)

theorem sets_plain (m : QueryMem) (r : Query × Bool) (C : Bytes → Prop) (S : Prop)
    (hr : r.1.rdata = m.q.rdata) (hn : r.1.name = m.q.name) (hb : r.1.bailiwick = m.q.bailiwick)
    (hs : r.2 = false → S) : Sets (plainMem m r) m r C S := by
  intro e F
  refine .pure ⟨e, ?_, rfl, rfl, rfl, .kept rfl rfl hs⟩
  unfold QueryMem.own
  simp only [hr, hn, hb]
  exact List.Perm.refl _

theorem sets_dataName (L : Libs) (m : QueryMem) (s : Option Bytes) (hq : m.q.qType = .rrset ∨ m.q.qType = .rdataName) :
    Sets (setDataNameMem L m s) m (setDataName L m.q s) (Complains L m.q (.data s)) (Silent L m.q (.data s)) := by
  intro e F
  refine .perm (R' := blk m.name m.q.name ++ (blk m.err e ++ ((m.self, []) :: (blk m.rdata (m.q.rdata.getD []) ++
    blk m.bailiwick (m.q.bailiwick.getD []) ++ F)))) (by unfold QueryMem.own; blocks) ?_
  refine (does_loadName L m m.name m.q.name s m.q.caseSensitive e _).bind ?_
  rintro _ _ (⟨p, n, rfl, h, rfl, -, -⟩ | ⟨p, t, rfl, h, rfl, rfl, ht⟩)
  · refine .pure ⟨e, ?_, by simp only [setDataName, h], by simp only [setDataName, h], rfl, .kept rfl rfl nofun⟩
    unfold QueryMem.own
    blocks
  · refine .pure ⟨_, ?_, by simp only [setDataName, h], by simp only [setDataName, h], rfl,
      .wrote rfl rfl (.dataName t hq ht)⟩
    unfold QueryMem.own
    simp only [blk, Option.getD_none]
    blocks

theorem sets_raw (m : QueryMem) (L : Libs) (s : Option Bytes) (hq : m.q.qType = .rdataRaw) (C : Bytes → Prop) :
    Sets (setDataRawMem m s) m (setDataRaw m.q s) C (Silent L m.q (.data s)) := by
  intro e F
  refine .perm (R' := blk m.rdata (m.q.rdata.getD []) ++ ((m.self, []) :: (blk m.name m.q.name ++
    blk m.bailiwick (m.q.bailiwick.getD []) ++ blk m.err e ++ F))) (by unfold QueryMem.own; blocks) ?_
  unfold setDataRawMem setDataRaw
  refine (does_free_blk _ _ _).bind ?_
  rintro _ _ rfl
  cases s with
  | none =>
    refine .pure ⟨e, ?_, rfl, rfl, rfl, .kept rfl rfl nofun⟩
    unfold QueryMem.own
    simp only [blk]
    blocks
  | some hex =>
    simp only
    split
    · refine .pure ⟨e, ?_, rfl, rfl, rfl, .kept rfl rfl fun _ => .raw hex hq⟩
      unfold QueryMem.own
      simp only [blk]
      blocks
    · have bad : Does (do
          let p ← mAlloc []
          mFree (some p)
          pure ({ m with rdata := none,
                         q := { m.q with rdata := none, lenRdata := hex.length / 2 } }, false))
          ((m.self, []) :: (blk m.name m.q.name ++ blk m.bailiwick (m.q.bailiwick.getD []) ++ blk m.err e ++ F))
          fun a R' => ∃ e', R'.Perm (a.1.own e' ++ F) ∧
            a.1.q = { m.q with rdata := none, lenRdata := hex.length / 2 } ∧ a.2 = false ∧ a.1.self = m.self ∧
            Wrote C (Silent L m.q (.data (some hex))) m e a.2 a.1 e' := by
        refine (does_alloc _ _).bind ?_
        rintro p _ ⟨rfl, -⟩
        refine (does_free _ _ _).bind ?_
        rintro _ _ rfl
        refine .pure ⟨e, ?_, rfl, rfl, rfl, .kept rfl rfl fun _ => .raw hex hq⟩
        unfold QueryMem.own
        simp only [blk]
        blocks
      generalize hexDecode hex = z
      cases z with
      | ok raw =>
        refine (does_alloc _ _).bind ?_
        rintro p _ ⟨rfl, -⟩
        refine .pure ⟨e, ?_, rfl, rfl, rfl, .kept rfl rfl nofun⟩
        unfold QueryMem.own
        simp only [blk, Option.getD_some]
        blocks
      | fail => exact bad
      | fault f => exact bad

theorem sets_bailiwick (L : Libs) (m : QueryMem) (s : Option Bytes) :
    Sets (setBailiwickMem L m s) m (setBailiwick L m.q s) (Complains L m.q (.bailiwick s))
      (Silent L m.q (.bailiwick s)) := by
  intro e F
  unfold setBailiwickMem setBailiwick
  by_cases hq : m.q.qType ≠ .rrset
  · rw [if_pos hq, if_pos hq]
    refine (does_setErr m _ e F).bind ?_
    rintro _ R' ⟨p, rfl, hp⟩
    exact .pure ⟨_, hp, rfl, rfl, rfl, .wrote rfl rfl (.bailiwickKind s hq)⟩
  · rw [if_neg hq, if_neg hq]
    have hq' : m.q.qType = .rrset := Classical.not_not.1 hq
    refine .perm (R' := blk m.bailiwick (m.q.bailiwick.getD []) ++ (blk m.err e ++ ((m.self, []) ::
      (blk m.rdata (m.q.rdata.getD []) ++ blk m.name m.q.name ++ F)))) (by unfold QueryMem.own; blocks) ?_
    refine (does_loadName L m m.bailiwick _ s false e _).bind ?_
    rintro _ _ (⟨p, n, rfl, h, rfl, hp, hs⟩ | ⟨p, t, rfl, h, rfl, rfl, ht⟩)
    · rw [h]
      cases n with
      | none =>
        refine .pure ⟨e, ?_, rfl, rfl, rfl, .kept rfl rfl nofun⟩
        unfold QueryMem.own
        simp only [hp rfl, blk]
        blocks
      | some n =>
        have bad (hr : ∀ r, reverseName n ≠ .ok r) : Does (do
            let rev ← mAlloc []
            mFree (some rev)
            pure ({ m with bailiwick := p, q := { m.q with bailiwick := some n } }, false))
            (blk p ((some n).getD []) ++ (blk m.err e ++ ((m.self, []) ::
              (blk m.rdata (m.q.rdata.getD []) ++ blk m.name m.q.name ++ F))))
            fun a R' => ∃ e', R'.Perm (a.1.own e' ++ F) ∧ a.1.q = { m.q with bailiwick := some n } ∧ a.2 = false ∧
              a.1.self = m.self ∧ Wrote (Complains L m.q (.bailiwick s)) (Silent L m.q (.bailiwick s)) m e a.2 a.1 e' := by
          refine (does_alloc _ _).bind ?_
          rintro r _ ⟨rfl, -⟩
          refine (does_free _ _ _).bind ?_
          rintro _ _ rfl
          refine .pure ⟨e, ?_, rfl, rfl, rfl, .kept rfl rfl fun _ => ?_⟩
          · unfold QueryMem.own
            blocks
          · unfold loadName at h
            split at h
            · cases h
            · split at h
              · cases h
              · next t _ nn ht =>
                cases h
                exact .bailiwick t nn hq' ht hr
        simp only
        revert bad
        generalize reverseName n = z
        intro bad
        cases z with
        | ok r =>
          refine (does_alloc _ _).bind ?_
          rintro rev _ ⟨rfl, -⟩
          refine .perm (R' := blk p ((some n).getD []) ++ ((rev, r) :: (blk m.err e ++ ((m.self, []) ::
            (blk m.rdata (m.q.rdata.getD []) ++ blk m.name m.q.name ++ F))))) (by blocks) ?_
          refine (does_free_blk _ _ _).bind ?_
          rintro _ _ rfl
          refine .pure ⟨e, ?_, rfl, rfl, rfl, .kept rfl rfl nofun⟩
          unfold QueryMem.own
          simp only [blk, Option.getD_some]
          blocks
        | fail => exact bad nofun
        | fault f => exact bad nofun
    · rw [h]
      refine .pure ⟨_, ?_, rfl, rfl, rfl, .wrote rfl rfl (.bailiwickName t hq' ht)⟩
      unfold QueryMem.own
      simp only [blk]
      blocks

theorem sets_rrtype (L : Libs) (m : QueryMem) (s : Option Bytes) (S : Prop) :
    Sets (setRrtypeMem L m s) m (setRrtype L m.q s) (Complains L m.q (.rrtype s)) S := by
  intro e F
  unfold setRrtypeMem setRrtype
  cases s with
  | none => exact .pure ⟨e, List.Perm.refl _, rfl, rfl, rfl, .kept rfl rfl nofun⟩
  | some s =>
    simp only
    split
    · exact .pure ⟨e, List.Perm.refl _, rfl, rfl, rfl, .kept rfl rfl nofun⟩
    · split
      · refine (does_setErr m _ e F).bind ?_
        rintro _ R' ⟨p, rfl, hp⟩
        exact .pure ⟨_, hp, rfl, rfl, rfl, .wrote rfl rfl (.rrtype s)⟩
      · exact .pure ⟨e, List.Perm.refl _, rfl, rfl, rfl, .kept rfl rfl nofun⟩

theorem sets_address (L : Libs) (m : QueryMem) (s : Bytes) (S : Prop) (hq : m.q.qType = .rdataIp) (h1 : 45 ∉ s)
    (h2 : 47 ∉ s) :
    Sets (setDataAddressMem L m s) m (setDataAddress L m.q s) (Complains L m.q (.data (some s))) S := by
  intro e F
  unfold setDataAddressMem setDataAddress
  refine (does_loadAddress L { m with q := { m.q with ip2 := [] } } s e F).bind ?_
  rintro _ R' (⟨-, ad, h, -, rfl, rfl⟩ | ⟨hn, h, p, rfl, hp⟩)
  · rw [h]
    exact .pure ⟨e, List.Perm.refl _, rfl, rfl, rfl, .kept rfl rfl nofun⟩
  · rw [h]
    exact .pure ⟨_, hp, rfl, rfl, rfl, .wrote rfl rfl (.address s hq h1 h2 hn)⟩

theorem sets_range (L : Libs) (m : QueryMem) (s : Bytes) (hq : m.q.qType = .rdataIp) (hm : 45 ∈ s) :
    Sets (setRangeMem L m s) m (setDataRange L m.q s) (Complains L m.q (.data (some s)))
      (Silent L m.q (.data (some s))) := by
  intro e F
  unfold setRangeMem setDataRange
  split
  · next a b ht =>
    refine (does_loadAddress L m a e F).bind ?_
    rintro _ R' (⟨hA, ad, h, hl, rfl, rfl⟩ | ⟨hn, h, p, rfl, hp⟩)
    · simp only [ht, h]
      refine (does_loadAddress L { m with q := { m.q with ip1 := ad } } b e F).bind ?_
      rintro _ R' (⟨hB, bd, h', hl', rfl, rfl⟩ | ⟨hn, h', p, rfl, hp⟩)
      · simp only [h']
        simp only [↓reduceIte]
        by_cases hd : ad.length ≠ bd.length
        · rw [if_pos hd, if_pos hd]
          refine (does_setErr { m with q := { m.q with ip1 := ad, ip2 := bd } } _ e F).bind ?_
          rintro _ R' ⟨p, rfl, hp⟩
          refine .pure ⟨_, hp, rfl, rfl, rfl, .wrote rfl rfl (.rangeFamily s a b hq hm ht hA hB ?_)⟩
          rw [hl, hl']
          simpa using hd
        · rw [if_neg hd, if_neg hd]
          exact .pure ⟨e, List.Perm.refl _, rfl, rfl, rfl, .kept rfl rfl nofun⟩
      · simp only [h']
        exact .pure ⟨_, hp, rfl, rfl, rfl, .wrote rfl rfl (.rangeAddress s a b hq hm ht fun h => hn h.2)⟩
    · simp only [ht, h]
      exact .pure ⟨_, hp, rfl, rfl, rfl, .wrote rfl rfl (.rangeAddress s a b hq hm ht fun h => hn h.1)⟩
  · next hno =>
    have hl : (tokens 45 s).length ≠ 2 := by
      intro h2
      match ht : tokens 45 s, h2 with
      | [a, b], _ => exact hno a b ht
    refine .pure ⟨e, List.Perm.refl _, ?_, ?_, rfl, .kept rfl rfl fun _ => .rangeParts s hq hm hl⟩
    · split
      · next a b ht => exact absurd ht (hno a b)
      · rfl
    · split
      · next a b ht => exact absurd ht (hno a b)
      · rfl

theorem sets_dataRange (L : Libs) (m : QueryMem) (s : Bytes) (hq : m.q.qType = .rdataIp) (hm : 45 ∈ s) :
    Sets (setDataRangeMem L m s) m (setDataRange L m.q s) (Complains L m.q (.data (some s)))
      (Silent L m.q (.data (some s))) := by
  intro e F
  refine (does_alloc _ _).bind ?_
  rintro t _ ⟨rfl, -⟩
  refine .perm (R' := m.own e ++ ((t, s) :: F)) (by blocks) ?_
  refine (sets_range L m s hq hm e ((t, s) :: F)).bind ?_
  rintro r R' ⟨e', hp, h1, h2, h3, h4⟩
  refine .perm (R' := (t, s) :: (r.1.own e' ++ F)) (hp.trans (by blocks)) ?_
  refine (does_free _ _ _).bind ?_
  rintro _ _ rfl
  exact .pure ⟨e', List.Perm.refl _, h1, h2, h3, h4⟩

/-- `x` breaks off as `o` does. -/
def Breaks {α β : Type} (x : Mem α) (R : List (Nat × Bytes)) (o : Out β) : Prop :=
  ∀ h, Owned h R → (o = .fail → x h = .fail) ∧ ∀ f, o = .fault f → x h = .fault f

theorem Breaks.ok {α β : Type} (x : Mem α) (R : List (Nat × Bytes)) (b : β) : Breaks x R (.ok b) := by
  intro h _
  exact ⟨nofun, nofun⟩

theorem Breaks.first {α β γ : Type} {x : Mem α} {k : α → Mem γ} {R : List (Nat × Bytes)} {o : Out β}
    (hx : Breaks x R o) : Breaks (x >>= k) R o := by
  intro h H
  refine ⟨fun e => ?_, fun f e => ?_⟩
  · show (x h >>= fun p => k p.1 p.2) = _
    rw [(hx h H).1 e]; rfl
  · show (x h >>= fun p => k p.1 p.2) = _
    rw [(hx h H).2 f e]; rfl

theorem Does.breaks {α β γ : Type} {x : Mem α} {k : α → Mem γ} {R : List (Nat × Bytes)}
    {Q : α → List (Nat × Bytes) → Prop} {o : Out β} (hx : Does x R Q) (hk : ∀ a R', Q a R' → Breaks (k a) R' o) :
    Breaks (x >>= k) R o := by
  intro h H
  obtain ⟨a, h1, R1, e1, H1, q1⟩ := hx h H
  have := hk a R1 q1 h1 H1
  have hb : (x >>= k) h = k a h1 := by
    show (x h >>= fun p => k p.1 p.2) = _
    rw [e1]; rfl
  rw [hb]
  exact this

theorem Breaks.perm {α β : Type} {x : Mem α} {R R' : List (Nat × Bytes)} {o : Out β}
    (hp : R.Perm R') (hx : Breaks x R' o) : Breaks x R o := fun h H => hx h (H.mono hp)

private theorem two_breaks {α β : Type} {x y : Out Bytes} {g : Bytes → Bytes → α} {k : Bytes → Bytes → β}
    {R : List (Nat × Bytes)} :
    Breaks (do let lo ← mPure x; let hi ← mPure y; pure (g lo hi)) R
      (do let lo ← x; let hi ← y; (.ok (k lo hi) : Out β)) := by
  intro h _
  cases x with
  | ok lo =>
    cases y with
    | ok hi => exact ⟨nofun, nofun⟩
    | fail => exact ⟨fun _ => rfl, nofun⟩
    | fault f => exact ⟨nofun, fun f e => by cases e; rfl⟩
  | fail => exact ⟨fun _ => rfl, nofun⟩
  | fault f => exact ⟨nofun, fun f e => by cases e; rfl⟩

private theorem bind_eq_ok' {α β : Type} {x : Out α} {f : α → Out β} {b : β} (h : (x >>= f) = .ok b) :
    ∃ a, x = .ok a ∧ f a = .ok b := by
  cases x with
  | ok a => exact ⟨a, rfl, h⟩
  | fail => cases h
  | fault e => cases h

theorem does_prefix (A : Arith) (L : Libs) (m : QueryMem) (s e : Bytes) (F : List (Nat × Bytes)) {r : Query × Bool}
    (hr : setDataPrefix A L m.q s = .ok r) :
    Does (setPrefixMem A L m s) (m.own e ++ F) fun a R' => ∃ e', R'.Perm (a.1.own e' ++ F) ∧ a.1.q = r.1 ∧ a.2 = r.2 ∧
      a.1.self = m.self ∧ (a.2 = true → a.1.err = m.err ∧ e' = e) := by
  unfold setPrefixMem
  unfold setDataPrefix at hr
  split
  · next address plen ht =>
    rw [ht] at hr
    simp only at hr
    refine (does_loadAddress L m address e F).bind ?_
    rintro _ R' (⟨-, ip, h, -, rfl, rfl⟩ | ⟨-, h, p, rfl, hp⟩)
    · rw [h] at hr
      simp only at hr
      simp only [↓reduceIte]
      generalize strtolAll plen = z at hr ⊢
      cases z with
      | none => cases hr; exact .pure ⟨e, List.Perm.refl _, rfl, rfl, rfl, nofun⟩
      | some k =>
        simp only at hr ⊢
        split at hr
        · next hc =>
          cases hr
          rw [if_pos hc]
          exact .pure ⟨e, List.Perm.refl _, rfl, rfl, rfl, nofun⟩
        · next hc =>
          rw [if_neg hc]
          split at hr
          · next h4 =>
            rw [if_pos h4]
            obtain ⟨lo, hlo, hr⟩ := bind_eq_ok' hr
            obtain ⟨hi, hhi, hr⟩ := bind_eq_ok' hr
            cases hr
            refine (Does.mPure hlo (Q := fun a R => a = lo ∧ R = m.own e ++ F) ⟨rfl, rfl⟩).bind ?_
            rintro _ _ ⟨rfl, rfl⟩
            refine (Does.mPure hhi (Q := fun a R => a = hi ∧ R = m.own e ++ F) ⟨rfl, rfl⟩).bind ?_
            rintro _ _ ⟨rfl, rfl⟩
            exact .pure ⟨e, List.Perm.refl _, rfl, rfl, rfl, fun _ => ⟨rfl, rfl⟩⟩
          · next h4 =>
            rw [if_neg h4]
            split at hr
            · next h6 =>
              rw [if_pos h6]
              obtain ⟨lo, hlo, hr⟩ := bind_eq_ok' hr
              obtain ⟨hi, hhi, hr⟩ := bind_eq_ok' hr
              cases hr
              refine (Does.mPure hlo (Q := fun a R => a = lo ∧ R = m.own e ++ F) ⟨rfl, rfl⟩).bind ?_
              rintro _ _ ⟨rfl, rfl⟩
              refine (Does.mPure hhi (Q := fun a R => a = hi ∧ R = m.own e ++ F) ⟨rfl, rfl⟩).bind ?_
              rintro _ _ ⟨rfl, rfl⟩
              exact .pure ⟨e, List.Perm.refl _, rfl, rfl, rfl, fun _ => ⟨rfl, rfl⟩⟩
            · next h6 =>
              rw [if_neg h6]
              cases hr
              exact .pure ⟨e, List.Perm.refl _, rfl, rfl, rfl, nofun⟩
    · rw [h] at hr
      cases hr
      exact .pure ⟨_, hp, rfl, rfl, rfl, nofun⟩
  · next hno =>
    split at hr
    · next a b ht => exact absurd ht (hno a b)
    · cases hr
      exact .pure ⟨e, List.Perm.refl _, rfl, rfl, rfl, nofun⟩

theorem breaks_prefix (A : Arith) (L : Libs) (m : QueryMem) (s e : Bytes) (F : List (Nat × Bytes)) :
    Breaks (setPrefixMem A L m s) (m.own e ++ F) (setDataPrefix A L m.q s) := by
  unfold setPrefixMem setDataPrefix
  split
  · next address plen ht =>
    refine (does_loadAddress L m address e F).breaks ?_
    rintro _ R' (⟨-, ip, h, -, rfl, rfl⟩ | ⟨-, h, p, rfl, hp⟩)
    · rw [ht]
      simp only [h, ↓reduceIte]
      generalize strtolAll plen = z
      cases z with
      | none => exact .ok _ _ _
      | some k =>
        simp only
        split
        · exact .ok _ _ _
        · split
          · exact two_breaks
          · split
            · exact two_breaks
            · exact .ok _ _ _
    · rw [ht]
      simp only [h]
      exact .ok _ _ _
  · next hno =>
    split
    · next a b ht => exact absurd ht (hno a b)
    · exact .ok _ _ _

theorem sets_dataPrefix (A : Arith) (L : Libs) (m : QueryMem) (s : Bytes) (S : Prop) (hq : m.q.qType = .rdataIp)
    (h1 : 45 ∉ s) (h2 : 47 ∈ s) {r : Query × Bool} (hr : setDataPrefix A L m.q s = .ok r) :
    Sets (setDataPrefixMem A L m s) m r (Complains L m.q (.data (some s))) S := by
  intro e F
  refine (does_alloc _ _).bind ?_
  rintro t _ ⟨rfl, -⟩
  refine .perm (R' := m.own e ++ ((t, s) :: F)) (by blocks) ?_
  refine (does_prefix A L m s e ((t, s) :: F) hr).bind ?_
  rintro ⟨m', b⟩ R' ⟨e', hp, hq', hb, hs, he⟩
  obtain ⟨q', b'⟩ := r
  simp only at hp hq' hb hs he
  subst hb
  cases b with
  | true =>
    obtain ⟨herr, rfl⟩ := he rfl
    refine (Does.pure (a := m') (Q := fun a R => m' = a ∧ R' = R) ⟨rfl, rfl⟩).bind ?_
    rintro _ _ ⟨rfl, rfl⟩
    refine .perm (R' := (t, s) :: (m'.own e' ++ F)) (hp.trans (by blocks)) ?_
    refine (does_free _ _ _).bind ?_
    rintro _ _ rfl
    exact .pure ⟨e', List.Perm.refl _, hq', rfl, hs, .kept herr rfl nofun⟩
  | false =>
    refine .perm hp ?_
    refine (does_setErr m' (lit "unable to parse IP prefix") e' ((t, s) :: F)).bind ?_
    rintro _ R'' ⟨p, rfl, hp'⟩
    refine .perm (R' := (t, s) :: (({ m' with err := some p } : QueryMem).own (lit "unable to parse IP prefix") ++ F))
      (hp'.trans (by blocks)) ?_
    refine (does_free _ _ _).bind ?_
    rintro _ _ rfl
    exact .pure ⟨_, List.Perm.refl _, hq', rfl, hs, .wrote rfl rfl (.«prefix» s hq h1 h2)⟩

theorem breaks_dataPrefix (A : Arith) (L : Libs) (m : QueryMem) (s e : Bytes) (F : List (Nat × Bytes)) :
    Breaks (setDataPrefixMem A L m s) (m.own e ++ F) (setDataPrefix A L m.q s) := by
  refine (does_alloc _ _).breaks ?_
  rintro t _ ⟨rfl, -⟩
  refine .perm (R' := m.own e ++ ((t, s) :: F)) (by blocks) ?_
  exact (breaks_prefix A L m s e ((t, s) :: F)).first

private theorem version_shape (q : Query) (s : Option Bytes) : (setVersionType q s).1.rdata = q.rdata ∧
    (setVersionType q s).1.name = q.name ∧ (setVersionType q s).1.bailiwick = q.bailiwick ∧
    ((setVersionType q s).2 = false → s.isSome) := by
  unfold setVersionType
  split
  · exact ⟨rfl, rfl, rfl, nofun⟩
  · split
    · split
      · exact ⟨rfl, rfl, rfl, nofun⟩
      · exact ⟨rfl, rfl, rfl, fun _ => rfl⟩
    · exact ⟨rfl, rfl, rfl, fun _ => rfl⟩

theorem sets_data (A : Arith) (L : Libs) (m : QueryMem) (s : Option Bytes) {r : Query × Bool}
    (hr : setData A L m.q s = .ok r) :
    Sets (setDataMem A L m s) m r (Complains L m.q (.data s)) (Silent L m.q (.data s)) := by
  unfold setDataMem
  unfold setData at hr
  cases hq : m.q.qType with
  | rrset => rw [hq] at hr; cases hr; exact sets_dataName L m s (.inl hq)
  | rdataName => rw [hq] at hr; cases hr; exact sets_dataName L m s (.inr hq)
  | rdataIp =>
    rw [hq] at hr
    unfold setDataIp at hr
    unfold setDataIpMem
    cases s with
    | none =>
      cases hr
      intro e F
      exact .pure ⟨e, List.Perm.refl _, rfl, rfl, rfl, .kept rfl rfl nofun⟩
    | some s =>
      simp only at hr ⊢
      split at hr
      · next h1 =>
        cases hr
        rw [if_pos h1]
        exact sets_dataRange L m s hq h1
      · next h1 =>
        rw [if_neg h1]
        split at hr
        · next h2 =>
          rw [if_pos h2]
          exact sets_dataPrefix A L m s _ hq h1 h2 hr
        · next h2 =>
          cases hr
          rw [if_neg h2]
          exact sets_address L m s _ hq h1 h2
  | rdataRaw => rw [hq] at hr; cases hr; exact sets_raw m L s hq _
  | version =>
    rw [hq] at hr
    cases hr
    obtain ⟨h1, h2, h3, h4⟩ := version_shape m.q s
    refine sets_plain m _ _ _ h1 h2 h3 fun h => ?_
    obtain ⟨t, rfl⟩ := Option.isSome_iff_exists.1 (h4 h)
    exact .version t hq
  | timeRange =>
    rw [hq] at hr
    cases hr
    intro e F
    exact .pure ⟨e, List.Perm.refl _, rfl, rfl, rfl, .kept rfl rfl fun _ => .dataKind s (.inl hq)⟩
  | sourceInfo =>
    rw [hq] at hr
    cases hr
    intro e F
    exact .pure ⟨e, List.Perm.refl _, rfl, rfl, rfl, .kept rfl rfl fun _ => .dataKind s (.inr hq)⟩

theorem breaks_data (A : Arith) (L : Libs) (m : QueryMem) (s : Option Bytes) (e : Bytes) (F : List (Nat × Bytes)) :
    Breaks (setDataMem A L m s) (m.own e ++ F) (setData A L m.q s) := by
  unfold setDataMem setData
  cases m.q.qType with
  | rdataIp =>
    simp only
    unfold setDataIp setDataIpMem
    cases s with
    | none => exact .ok _ _ _
    | some s =>
      simp only
      split
      · exact .ok _ _ _
      · split
        · exact breaks_dataPrefix A L m s e F
        · exact .ok _ _ _
  | _ => exact .ok _ _ _

private theorem own_self (m : QueryMem) (e : Bytes) (F : List (Nat × Bytes)) :
    m.self ∈ (m.own e ++ F).map Prod.fst := by
  simp [QueryMem.own]

private theorem filter_shape (q : Query) (p : Nat) (v : Option Nat) (n : Nat) :
    (setFilterParameter q p v n).1.rdata = q.rdata ∧ (setFilterParameter q p v n).1.name = q.name ∧
    (setFilterParameter q p v n).1.bailiwick = q.bailiwick := by
  unfold setFilterParameter
  split
  · exact ⟨rfl, rfl, rfl⟩
  · split
    · exact ⟨rfl, rfl, rfl⟩
    · split
      · exact ⟨rfl, rfl, rfl⟩
      · split
        · exact ⟨rfl, rfl, rfl⟩
        · split
          · exact ⟨rfl, rfl, rfl⟩
          · exact ⟨rfl, rfl, rfl⟩

theorem sets_setter (A : Arith) (L : Libs) (m : QueryMem) (s : Setter) {r : Query × Bool}
    (hr : applySetter A L m.q s = .ok r) : Sets (setterMem A L m s) m r (Complains L m.q s) (Silent L m.q s) := by
  intro e F
  refine (does_touch (own_self m e F)).bind ?_
  rintro _ _ rfl
  cases s with
  | caseSensitive b => cases hr; exact sets_plain m _ _ _ rfl rfl rfl nofun e F
  | bailiwick s => cases hr; exact sets_bailiwick L m s e F
  | data s => exact sets_data A L m s hr e F
  | rrtype s => cases hr; exact sets_rrtype L m s _ e F
  | offset n => cases hr; exact sets_plain m _ _ _ rfl rfl rfl nofun e F
  | aggregated b => cases hr; exact sets_plain m _ _ _ rfl rfl rfl nofun e F
  | timeout t =>
    cases hr
    cases t with
    | none => exact sets_plain m _ _ _ rfl rfl rfl nofun e F
    | some t => exact sets_plain m _ _ _ rfl rfl rfl nofun e F
  | deadline t =>
    cases hr
    cases t with
    | none => exact sets_plain m _ _ _ rfl rfl rfl nofun e F
    | some t => exact sets_plain m _ _ _ rfl rfl rfl nofun e F
  | filterParam p v n =>
    cases hr
    obtain ⟨h1, h2, h3⟩ := filter_shape m.q p v n
    exact sets_plain m _ _ _ h1 h2 h3 (fun _ => .parameter p v n) e F

theorem breaks_setter (A : Arith) (L : Libs) (m : QueryMem) (s : Setter) (e : Bytes) (F : List (Nat × Bytes)) :
    Breaks (setterMem A L m s) (m.own e ++ F) (applySetter A L m.q s) := by
  refine (does_touch (own_self m e F)).breaks ?_
  rintro _ _ rfl
  cases s with
  | data s => exact breaks_data A L m s e F
  | _ => exact .ok _ _ _

theorem does_getError (m : QueryMem) (e : Bytes) (F : List (Nat × Bytes)) :
    Does (getErrorMem m) (m.own e ++ F) fun a R' => ∃ e', R'.Perm (a.1.own e' ++ F) ∧ a.1.q = m.q ∧
      a.1.self = m.self ∧ a.1.err = some a.2 ∧ (m.err.isSome → a.1 = m ∧ e' = e) ∧
      (m.err = none → e' = lit "unknown error") := by
  refine (does_touch (own_self m e F)).bind ?_
  rintro _ _ rfl
  cases he : m.err with
  | some p => exact .pure ⟨e, List.Perm.refl _, rfl, rfl, he, fun _ => ⟨rfl, rfl⟩, nofun⟩
  | none =>
    refine (does_alloc _ _).bind ?_
    rintro p _ ⟨rfl, -⟩
    refine .pure ⟨lit "unknown error", ?_, rfl, rfl, rfl, nofun, fun _ => rfl⟩
    unfold QueryMem.own
    simp only [he, blk]
    blocks

theorem does_queryDestroy (m : QueryMem) (e : Bytes) (F : List (Nat × Bytes)) :
    Does (queryDestroyMem (some m)) (m.own e ++ F) fun a R' => a = none ∧ R' = F := by
  refine (does_touch (own_self m e F)).bind ?_
  rintro _ _ rfl
  refine .perm (R' := blk m.rdata (m.q.rdata.getD []) ++ (blk m.name m.q.name ++ (blk m.bailiwick
    (m.q.bailiwick.getD []) ++ (blk m.err e ++ ((m.self, []) :: F))))) (by unfold QueryMem.own; blocks) ?_
  refine (does_free_blk _ _ _).bind ?_
  rintro _ _ rfl
  refine (does_free_blk _ _ _).bind ?_
  rintro _ _ rfl
  refine (does_free_blk _ _ _).bind ?_
  rintro _ _ rfl
  refine (does_free_blk _ _ _).bind ?_
  rintro _ _ rfl
  refine (does_free _ _ _).bind ?_
  rintro _ _ rfl
  exact .pure ⟨rfl, rfl⟩

theorem does_queryInit (t : QType) (ht : t ≠ .sourceInfo) (R : List (Nat × Bytes)) :
    Does (queryInitMem t) R fun m R' => m.q = { qType := t } ∧ m.err = none ∧ R'.Perm (m.own [] ++ R) := by
  refine (Does.mPure (a := ({ qType := t } : Query)) (Q := fun a R' => a = { qType := t } ∧ R' = R)
    (by rw [queryInit, if_neg ht]) ⟨rfl, rfl⟩).bind ?_
  rintro _ _ ⟨rfl, rfl⟩
  refine (does_alloc _ _).bind ?_
  rintro p _ ⟨rfl, -⟩
  refine .pure ⟨rfl, rfl, ?_⟩
  unfold QueryMem.own
  simp only [blk]
  blocks

/-- No failure has a text and has none. -/
theorem complains_not_silent {L : Libs} {q : Query} {s : Setter} {t : Bytes} (h : Complains L q s t) :
    ¬ Silent L q s := by
  intro h'
  cases h with
  | bailiwickKind s hq => cases h' with | bailiwick s n hq' => exact hq hq'
  | bailiwickName s hq hn => cases h' with | bailiwick s n hq' hn' => rw [hn] at hn'; cases hn'
  | dataName s hq hn =>
    cases h' with
    | raw _ hq' => rw [hq'] at hq; rcases hq with h | h <;> cases h
    | rangeParts _ hq' => rw [hq'] at hq; rcases hq with h | h <;> cases h
    | version _ hq' => rw [hq'] at hq; rcases hq with h | h <;> cases h
    | dataKind _ hq' => rcases hq with h | h <;> rw [h] at hq' <;> rcases hq' with h | h <;> cases h
  | address s hq h1 h2 =>
    cases h' with
    | raw _ hq' => rw [hq'] at hq; cases hq
    | rangeParts _ hq' hm => exact h1 hm
    | version _ hq' => rw [hq'] at hq; cases hq
    | dataKind _ hq' => rw [hq] at hq'; rcases hq' with h | h <;> cases h
  | rangeAddress s a b hq hm ht =>
    cases h' with
    | raw _ hq' => rw [hq'] at hq; cases hq
    | rangeParts _ hq' hm hl => rw [ht] at hl; exact hl rfl
    | version _ hq' => rw [hq'] at hq; cases hq
    | dataKind _ hq' => rw [hq] at hq'; rcases hq' with h | h <;> cases h
  | rangeFamily s a b hq hm ht =>
    cases h' with
    | raw _ hq' => rw [hq'] at hq; cases hq
    | rangeParts _ hq' hm hl => rw [ht] at hl; exact hl rfl
    | version _ hq' => rw [hq'] at hq; cases hq
    | dataKind _ hq' => rw [hq] at hq'; rcases hq' with h | h <;> cases h
  | «prefix» s hq h1 h2 =>
    cases h' with
    | raw _ hq' => rw [hq'] at hq; cases hq
    | rangeParts _ hq' hm => exact h1 hm
    | version _ hq' => rw [hq'] at hq; cases hq
    | dataKind _ hq' => rw [hq] at hq'; rcases hq' with h | h <;> cases h
  | rrtype s => cases h'

/-- The text `dnstable_query_get_error` would give. -/
def QueryMem.text (m : QueryMem) (e : Bytes) : Bytes := if m.err = none then lit "unknown error" else e

theorem Wrote.text {C : Bytes → Prop} {S : Prop} {m m' : QueryMem} {e e' : Bytes} {b : Bool}
    (h : Wrote C S m e b m' e') : (m'.text e' = m.text e ∧ (b = false → S)) ∨ (b = false ∧ C (m'.text e')) := by
  cases h with
  | kept h1 h2 h3 => subst h2; exact .inl ⟨by simp only [QueryMem.text, h1], h3⟩
  | wrote h1 h2 h3 =>
    refine .inr ⟨h2, ?_⟩
    rw [QueryMem.text, if_neg (by intro h; rw [h] at h1; cases h1)]
    exact h3

/-- What a call does, if the setter is defined. -/
theorem does_call (A : Arith) (L : Libs) (m : QueryMem) (c : QueryCall) (q' : Query) (bs : List Bool)
    (hc : applySetters A L m.q (settersOf [c]) = .ok (q', bs)) (e : Bytes) (F : List (Nat × Bytes)) :
    Does (queryCallMem A L m c) (m.own e ++ F) fun a R' => ∃ e', R'.Perm (a.1.own e' ++ F) ∧ a.1.q = q' ∧
      a.1.self = m.self ∧
      (∀ q₀ ss, Told A L q₀ ss m.q (m.text e) → Told A L q₀ (ss ++ settersOf [c]) a.1.q (a.1.text e')) ∧
      (m.err.isSome → Quiet A L m.q (settersOf [c]) → a.1.err = m.err ∧ e' = e) := by
  cases c with
  | set s =>
    have hl : settersOf [.set s] = [s] := rfl
    rw [hl] at hc ⊢
    simp only [applySetters] at hc
    obtain ⟨r, hr, hc⟩ := bind_eq_ok' hc
    cases hc
    refine (sets_setter A L m s hr e F).bind ?_
    rintro ⟨m', b⟩ R' ⟨e', hp, h1, h2, h3, h4⟩
    refine .pure ⟨e', hp, h1, h3, fun q₀ ss ht => ?_, fun he hq => ?_⟩
    · obtain ⟨q', b'⟩ := r
      simp only at h1 h2 h4
      subst h1 h2
      rcases h4.text with ⟨ht', hs⟩ | ⟨hb, hC⟩
      · simp only
        rw [ht']
        cases b with
        | true => exact .success ss _ _ s _ ht hr
        | false => exact .unexplained ss _ _ s _ ht hr (hs rfl)
      · subst hb
        exact .failure ss _ _ s _ _ ht hr hC
    · obtain ⟨q', b', hq', hs, -⟩ := hq
      rw [hr] at hq'
      cases hq'
      cases h4 with
      | kept h1 h2 => exact ⟨h1, h2⟩
      | wrote _ hb hC =>
        simp only at h2 hb
        exact absurd (hs (h2.symm.trans hb)) (complains_not_silent hC)
  | getError =>
    have hl : settersOf [.getError] = [] := rfl
    rw [hl] at hc ⊢
    cases hc
    refine (does_getError m e F).bind ?_
    rintro ⟨m', p⟩ R' ⟨e', hp, h1, h2, h3, h4, h5⟩
    refine .pure ⟨e', hp, h1, h2, fun q₀ ss ht => ?_, fun he _ => ?_⟩
    · rw [List.append_nil, h1]
      have : m'.text e' = m.text e := by
        unfold QueryMem.text
        cases he : m.err with
        | none =>
          simp only at h3
          rw [if_neg (by rw [h3]; nofun), h5 he, if_pos rfl]
        | some p =>
          obtain ⟨rfl, rfl⟩ := h4 (by rw [he]; rfl)
          simp only at he
          rw [he]
      simp only
      rw [this]
      exact ht
    · obtain ⟨h, h'⟩ := h4 he
      simp only at h
      subst h
      exact ⟨rfl, h'⟩

theorem breaks_call (A : Arith) (L : Libs) (m : QueryMem) (c : QueryCall) (e : Bytes) (F : List (Nat × Bytes)) :
    Breaks (queryCallMem A L m c) (m.own e ++ F) (applySetters A L m.q (settersOf [c])) := by
  cases c with
  | set s =>
    have hl : settersOf [.set s] = [s] := rfl
    rw [hl]
    simp only [applySetters]
    intro h H
    have hb := (breaks_setter A L m s e F).first (k := fun r => (pure (r.1, QueryAnswer.result r.2) : Mem _)) h H
    generalize applySetter A L m.q s = z at hb ⊢
    cases z with
    | ok r => exact ⟨nofun, nofun⟩
    | fail => exact ⟨fun _ => hb.1 rfl, nofun⟩
    | fault f => exact ⟨nofun, fun f e => by cases e; exact hb.2 f rfl⟩
  | getError => exact .ok _ _ _

theorem applySetters_append (A : Arith) (L : Libs) (q : Query) (ss ts : List Setter) :
    applySetters A L q (ss ++ ts) = (do
      let r ← applySetters A L q ss
      let r' ← applySetters A L r.1 ts
      .ok (r'.1, r.2 ++ r'.2)) := by
  induction ss generalizing q with
  | nil =>
    simp only [List.nil_append, applySetters, Out.ok_bind]
    cases applySetters A L q ts <;> rfl
  | cons s ss ih =>
    simp only [List.cons_append, applySetters]
    cases applySetter A L q s with
    | ok r =>
      simp only [Out.ok_bind, ih]
      cases applySetters A L r.1 ss with
      | ok r1 =>
        simp only [Out.ok_bind]
        cases applySetters A L r1.1 ts <;> rfl
      | fail => rfl
      | fault f => rfl
    | fail => rfl
    | fault f => rfl

theorem settersOf_cons (c : QueryCall) (cs : List QueryCall) : settersOf (c :: cs) = settersOf [c] ++ settersOf cs := by
  cases c <;> rfl

private theorem quiet_append {A : Arith} {L : Libs} {q : Query} {ss ts : List Setter} (h : Quiet A L q (ss ++ ts)) :
    Quiet A L q ss ∧ ∀ r, applySetters A L q ss = .ok r → Quiet A L r.1 ts := by
  induction ss generalizing q with
  | nil => exact ⟨trivial, fun r hr => by cases hr; exact h⟩
  | cons s ss ih =>
    obtain ⟨q', b, h1, h2, h3⟩ := h
    refine ⟨⟨q', b, h1, h2, (ih h3).1⟩, fun r hr => ?_⟩
    simp only [applySetters, h1, Out.ok_bind] at hr
    obtain ⟨r', hr', hr⟩ := bind_eq_ok' hr
    cases hr
    exact (ih h3).2 r' hr'

theorem does_calls (A : Arith) (L : Libs) (m : QueryMem) (cs : List QueryCall) (q' : Query) (bs : List Bool)
    (hc : applySetters A L m.q (settersOf cs) = .ok (q', bs)) (e : Bytes) (F : List (Nat × Bytes)) :
    Does (queryCallsMem A L m cs) (m.own e ++ F) fun a R' => ∃ e', R'.Perm (a.1.own e' ++ F) ∧ a.1.q = q' ∧
      a.1.self = m.self ∧
      (∀ q₀ ss, Told A L q₀ ss m.q (m.text e) → Told A L q₀ (ss ++ settersOf cs) a.1.q (a.1.text e')) ∧
      (m.err.isSome → Quiet A L m.q (settersOf cs) → a.1.err = m.err ∧ e' = e) := by
  induction cs generalizing m q' bs e with
  | nil =>
    cases hc
    refine .pure ⟨e, List.Perm.refl _, rfl, rfl, fun q₀ ss h => ?_, fun _ _ => ⟨rfl, rfl⟩⟩
    rw [show settersOf [] = [] from rfl, List.append_nil]
    exact h
  | cons c cs ih =>
    rw [settersOf_cons, applySetters_append] at hc
    obtain ⟨⟨q1, b1⟩, h1, hc⟩ := bind_eq_ok' hc
    obtain ⟨⟨q2, b2⟩, h2, hc⟩ := bind_eq_ok' hc
    cases hc
    refine (does_call A L m c q1 b1 h1 e F).bind ?_
    rintro ⟨m1, a1⟩ R1 ⟨e1, hp, rfl, hs, ht, hk⟩
    refine .perm hp ?_
    refine (ih m1 q2 b2 h2 e1).bind ?_
    rintro ⟨m2, a2⟩ R2 ⟨e2, hp2, rfl, hs2, ht2, hk2⟩
    refine .pure ⟨e2, hp2, rfl, hs2.trans hs, fun q₀ ss h => ?_, fun he hq => ?_⟩
    · rw [settersOf_cons, ← List.append_assoc]
      exact ht2 _ _ (ht _ _ h)
    · rw [settersOf_cons] at hq
      obtain ⟨hq1, hq2⟩ := quiet_append hq
      obtain ⟨k1, k2⟩ := hk he hq1
      simp only at k1
      obtain ⟨k3, k4⟩ := hk2 (by rw [k1]; exact he) (hq2 _ h1)
      exact ⟨k3.trans k1, k4.trans k2⟩

theorem breaks_calls (A : Arith) (L : Libs) (m : QueryMem) (cs : List QueryCall) (e : Bytes) (F : List (Nat × Bytes)) :
    Breaks (queryCallsMem A L m cs) (m.own e ++ F) (applySetters A L m.q (settersOf cs)) := by
  induction cs generalizing m e with
  | nil => exact .ok _ _ _
  | cons c cs ih =>
    rw [settersOf_cons, applySetters_append]
    cases h1 : applySetters A L m.q (settersOf [c]) with
    | ok r =>
      obtain ⟨q1, b1⟩ := r
      refine (does_call A L m c q1 b1 h1 e F).breaks ?_
      rintro ⟨m1, a1⟩ R1 ⟨e1, hp, rfl, -⟩
      simp only [Out.ok_bind]
      refine Breaks.first ?_
      intro h H
      have := ih m1 e1 h (H.mono hp)
      generalize applySetters A L m1.q (settersOf cs) = z at this ⊢
      cases z with
      | ok r => exact ⟨nofun, nofun⟩
      | fail => exact ⟨fun _ => this.1 rfl, nofun⟩
      | fault f => exact ⟨nofun, fun f e => by cases e; exact this.2 f rfl⟩
    | fail =>
      have := breaks_call A L m c e F
      rw [h1] at this
      refine Breaks.first ?_
      intro h H
      exact ⟨fun _ => (this h H).1 rfl, nofun⟩
    | fault f =>
      have := breaks_call A L m c e F
      rw [h1] at this
      refine Breaks.first ?_
      intro h H
      exact ⟨nofun, fun f e => by cases e; exact (this h H).2 f rfl⟩

end Verif
