import Verif.Lemmas.Live
import Verif.Spec.Live

/-!
# Runs with a changing query
-/

namespace Verif
open Spec

/-! ## Harmless changes -/

theorem setter_harmless {A : Arith} {T : Libs} {q q' : Query} {x : Setter} {b : Bool} (hx : Harmless q.qType x)
    (h : applySetter A T q x = .ok (q', b)) :
    Agree q' q ∧ q'.offset = q.offset ∧ q'.qType = q.qType ∧ ∀ os, limitsAt q'.lim os = limitsAt q.lim (.set x :: os) := by
  cases x with
  | caseSensitive c => cases h; exact ⟨⟨rfl, rfl, rfl, rfl⟩, rfl, rfl, fun _ => rfl⟩
  | aggregated c => cases h; exact ⟨⟨rfl, rfl, rfl, rfl⟩, rfl, rfl, fun _ => rfl⟩
  | timeout t =>
    cases t with
    | none => cases h; exact ⟨⟨rfl, rfl, rfl, rfl⟩, rfl, rfl, fun _ => rfl⟩
    | some t => cases h; exact ⟨⟨rfl, rfl, rfl, rfl⟩, rfl, rfl, fun _ => rfl⟩
  | deadline t =>
    cases t with
    | none => cases h; exact ⟨⟨rfl, rfl, rfl, rfl⟩, rfl, rfl, fun _ => rfl⟩
    | some t => cases h; exact ⟨⟨rfl, rfl, rfl, rfl⟩, rfl, rfl, fun _ => rfl⟩
  | data s =>
    simp only [applySetter, setData] at h
    have hx : q.qType ≠ .rdataIp := hx
    have hl : ∀ os l, limitsAt l os = limitsAt l (.set (.data s) :: os) := fun _ _ => rfl
    split at h
    · cases h; exact ⟨⟨rfl, rfl, rfl, rfl⟩, rfl, rfl, fun os => hl os _⟩
    · cases h; exact ⟨⟨rfl, rfl, rfl, rfl⟩, rfl, rfl, fun os => hl os _⟩
    · rename_i hq; exact absurd hq hx
    · have e : (setDataRaw q s).1 = q' := congrArg Prod.fst (Out.ok.inj h)
      subst e
      unfold setDataRaw
      dsimp only
      split
      · exact ⟨⟨rfl, rfl, rfl, rfl⟩, rfl, rfl, fun os => hl os _⟩
      · split
        · exact ⟨⟨rfl, rfl, rfl, rfl⟩, rfl, rfl, fun os => hl os _⟩
        · split <;> exact ⟨⟨rfl, rfl, rfl, rfl⟩, rfl, rfl, fun os => hl os _⟩
    · have e : (setVersionType q s).1 = q' := congrArg Prod.fst (Out.ok.inj h)
      subst e
      unfold setVersionType
      split
      · exact ⟨⟨rfl, rfl, rfl, rfl⟩, rfl, rfl, fun os => hl os _⟩
      · split
        · split <;> exact ⟨⟨rfl, rfl, rfl, rfl⟩, rfl, rfl, fun os => hl os _⟩
        · exact ⟨⟨rfl, rfl, rfl, rfl⟩, rfl, rfl, fun os => hl os _⟩
    · cases h; exact ⟨⟨rfl, rfl, rfl, rfl⟩, rfl, rfl, fun os => hl os _⟩
  | bailiwick s => exact hx.elim
  | rrtype s => exact hx.elim
  | offset n => exact hx.elim
  | filterParam a b c => exact hx.elim

/-- A harmless setter is never undefined. -/
theorem setter_ok {A : Arith} {T : Libs} {q : Query} {x : Setter} (hx : Harmless q.qType x) :
    ∃ r, applySetter A T q x = .ok r := by
  cases x with
  | data s =>
    have hx : q.qType ≠ .rdataIp := hx
    simp only [applySetter, setData]
    split
    · exact ⟨_, rfl⟩
    · exact ⟨_, rfl⟩
    · rename_i hq; exact absurd hq hx
    · exact ⟨_, rfl⟩
    · exact ⟨_, rfl⟩
    · exact ⟨_, rfl⟩
  | _ => exact ⟨_, rfl⟩

/-- The call as it is recorded for a query that does not change. -/
def LiveCall.call (c : LiveCall) : Call := ⟨c.query.lim, c.before, c.after, c.res⟩

theorem liveRun_harmless {A : Arith} {T : Libs} {q0 : Query} {p : Plan} (hp : initKind q0 = .ok p) (S : Sources) :
    ∀ (os : List LiveOp) (q : Query) (s : QSt ((liveAssemble q0 S p).at q0)) (w : World),
      Agree q q0 → q.qType = q0.qType → w.offset = q.offset → (∀ x, .set x ∈ os → Harmless q0.qType x) →
      (liveRun A T q0 (liveAssemble q0 S p) os q s w).map LiveCall.call =
        queryRun q0 ((liveAssemble q0 S p).at q0) (limitsAt q.lim os) s w
  | [], q, s, w, _, _, _, _ => rfl
  | .set x :: os, q, s, w, ha, hq, hw, hx => by
    have hh := hx x List.mem_cons_self
    rw [← hq] at hh
    obtain ⟨⟨q', b⟩, e⟩ := setter_ok (A := A) (T := T) hh
    obtain ⟨h1, h2, h3, h4⟩ := setter_harmless hh e
    unfold liveRun
    rw [e]
    dsimp only
    rw [← h4]
    refine liveRun_harmless hp S os q' s w ⟨h1.1.trans ha.1, h1.2.trans ha.2, h1.3.trans ha.3, h1.4.trans ha.4⟩
      (h3.trans hq) (hw.trans h2.symm) fun x h => hx x (List.mem_cons_of_mem _ h)
  | .next :: os, q, s, w, ha, hq, hw, hx => by
    have hw' : ({ w with offset := q.offset } : World) = w := by rw [← hw]
    obtain ⟨n1, n2, n3⟩ := liveNext_agree (live_source_congr ha q0 S p) (live_index_congr ha q0 S p) s w
    have ha' : Agree q { q0 with lim := q.lim } := ⟨ha.1, ha.2, ha.3, ha.4⟩
    have e := queryNext_congr ha' rfl ((liveAssemble q0 S p).at q0) s w
    have hn : liveNext q0 (liveAssemble q0 S p) q s w =
        ((queryNext { q0 with lim := q.lim } ((liveAssemble q0 S p).at q0) s w).1,
         (queryNext { q0 with lim := q.lim } ((liveAssemble q0 S p).at q0) s w).2.1,
         { q with offset := (queryNext { q0 with lim := q.lim } ((liveAssemble q0 S p).at q0) s w).2.2.offset },
         (queryNext { q0 with lim := q.lim } ((liveAssemble q0 S p).at q0) s w).2.2) := by
      unfold liveNext
      rw [hw']
      dsimp only
      rw [n1, n2, n3, e]
    unfold liveRun
    rw [hn, hw']
    dsimp only
    have := liveRun_harmless (A := A) (T := T) hp S os
      { q with offset := (queryNext { q0 with lim := q.lim } ((liveAssemble q0 S p).at q0) s w).2.2.offset }
      (queryNext { q0 with lim := q.lim } ((liveAssemble q0 S p).at q0) s w).2.1
      (queryNext { q0 with lim := q.lim } ((liveAssemble q0 S p).at q0) s w).2.2
      ⟨ha.1, ha.2, ha.3, ha.4⟩ hq rfl (fun x h => hx x (List.mem_cons_of_mem _ h))
    rw [List.map_cons, this]
    rfl

/-! ## What can be delivered -/

/-- As `Emits`, for every state of the query. -/
def EmitsQ (M : QMach) (Inv : M.St → Prop) (P : Query → KV → Prop) : Prop := ∀ q, Emits (M.at q) Inv (P q)

/-- Iterators of the view only deliver rows satisfying `P` of the query at that time. -/
def GivesQ (M : QMach) (V : View) (P : Query → KV → Prop) : Prop :=
  ∃ Inv : M.St → Prop, Inv (M.start V) ∧ EmitsQ M Inv P

theorem GivesQ.mono {M : QMach} {V : View} {P Q : Query → KV → Prop} (h : GivesQ M V P)
    (hpq : ∀ q kv, P q kv → Q q kv) : GivesQ M V Q := by
  obtain ⟨I, h0, hE⟩ := h
  exact ⟨I, h0, fun q => ⟨fun s hs w => ⟨((hE q).next s hs w).1, fun kv hk => hpq q kv (((hE q).next s hs w).2 kv hk)⟩,
    (hE q).seek⟩⟩

theorem givesQ_timeout (q0 : Query) (R : Src) (V : View) :
    GivesQ (liveTimeout q0 R.mach) V fun _ kv => kv ∈ R.rows ∧ V.ok kv.1 = true := by
  unfold liveTimeout
  split
  · obtain ⟨I, h0, hE⟩ := (gives_cur R.rows R.seekFails V).timeout
    exact ⟨I, h0, fun _ => hE⟩
  · obtain ⟨I, h0, hE⟩ := gives_cur R.rows R.seekFails V
    exact ⟨I, h0, fun _ => hE⟩

theorem GivesQ.filter {M : QMach} {V : View} {P : Query → KV → Prop} (h : GivesQ M V P) (g : Stage)
    (f : Query → FilterFn) : GivesQ (filterQ g f M) V fun q kv => P q kv ∧ ∃ w, (f q w kv).1 = .pass := by
  obtain ⟨I, h0, hE⟩ := h
  exact ⟨I, h0, fun q => ⟨fun s hs w => filterLoop_emits (hE q) g (f q) _ s hs w, (hE q).seek⟩⟩

theorem GivesQ.filterPure {M : QMach} {V : View} {P : Query → KV → Prop} (h : GivesQ M V P) (g : Stage)
    (f : Query → KV → Verdict) :
    GivesQ (filterQ g (fun q => pureF (f q)) M) V fun q kv => P q kv ∧ f q kv = .pass :=
  (h.filter g _).mono fun _ _ ⟨hp, _, hf⟩ => ⟨hp, hf⟩

theorem GivesQ.filters {q0 : Query} {n : Nat} {M : QMach} {V : View} {P : Query → KV → Prop} (h : GivesQ M V P)
    (fs : List Filt) :
    GivesQ (liveFilters q0 n fs M) V fun q kv => P q kv ∧ ∀ f ∈ fs, liveFilter q0 n f q kv = .pass := by
  induction fs generalizing M P with
  | nil => exact h.mono fun q kv hp => ⟨hp, fun f hf => by cases hf⟩
  | cons f fs ih =>
    refine (ih (h.filterPure f.1 (liveFilter q0 n f))).mono ?_
    rintro q kv ⟨⟨hp, hf⟩, hfs⟩
    exact ⟨hp, fun g hg => by
      cases hg with
      | head => exact hf
      | tail _ hg => exact hfs g hg⟩

theorem GivesQ.remove {q0 : Query} {M : QMach} {V : View} {P : Query → KV → Prop} (h : GivesQ M V P)
    (rm : Option (List Src)) : GivesQ (liveRemove q0 rm M) V P := by
  cases rm with
  | none => exact h
  | some l =>
    obtain ⟨I, h0, hE⟩ := h
    refine ⟨fun s => I s.up, h0, fun q => ⟨fun s hs w => ?_, fun s hs k w => (hE q).seek s.up hs k _⟩⟩
    exact removeLoop_emits (hE q) _ ⟨s.up, s.entries, s.view⟩ hs w

theorem ljoin_next_emits {mg : MergeFn} {L R : Mach} {I : L.St → Prop} {J : R.St → Prop} {P Q : KV → Prop}
    (hE : Emits L I P) (hF : Emits R J Q) (s : LjoinSt L R) (hs : JoinInv I J Q s) (w : World) :
    JoinInv I J Q ((ljoinM mg L R).next s w).2.1 ∧ ∀ x, ((ljoinM mg L R).next s w).1 = .item x → JoinsTo mg P Q x := by
  have hn := hE.next s.left hs.1 w
  simp only [ljoinM]
  rcases hm : L.next s.left w with ⟨r, sl, w1⟩
  rw [hm] at hn
  cases r with
  | item kv => exact ljoinLoop_emits hF kv (hn.2 kv rfl) _ { s with left := sl } ⟨hn.1, hs.2.1, hs.2.2⟩ _
  | done => exact ⟨⟨hn.1, hs.2⟩, fun x h => by cases h⟩
  | timeout => exact ⟨⟨hn.1, hs.2⟩, fun x h => by cases h⟩
  | fault e => exact ⟨⟨hn.1, hs.2⟩, fun x h => by cases h⟩

theorem ljoin_seek_emits {mg : MergeFn} {L R : Mach} {I : L.St → Prop} {J : R.St → Prop} {P Q : KV → Prop}
    (hE : Emits L I P) (hF : Emits R J Q) (s : LjoinSt L R) (hs : JoinInv I J Q s) (k : Bytes) (w : World) :
    JoinInv I J Q ((ljoinM mg L R).seek s k w).2.1 := by
  have hk := hE.seek s.left hs.1 k w
  simp only [ljoinM]
  rcases hm : L.seek s.left k w with ⟨ok, sl, w1⟩
  rw [hm] at hk
  cases ok with
  | false => exact ⟨hk, hs.2⟩
  | true => exact ⟨hk, hF.seek s.right hs.2.1 k w1, fun r h => by cases h⟩

theorem GivesQ.fill {q0 : Query} {M : QMach} {V : View} {P : Query → KV → Prop} (h : GivesQ M V P) (fl : Option Src) :
    GivesQ (liveFill q0 fl M) V fun q => JoinsTo mergeFunc (P q) (FillRow fl) := by
  cases fl with
  | none => exact h.mono fun q kv hp => .inl hp
  | some F =>
    obtain ⟨I, h0, hE⟩ := h
    obtain ⟨J, k0, hF⟩ := (gives_cur F.rows F.seekFails V).mono (Q := FillRow (some F)) fun kv hk => ⟨F, rfl, hk.1⟩
    refine ⟨JoinInv (L := M.at q0) I J (FillRow (some F)), ⟨h0, k0, fun r h => by cases h⟩,
      fun q => ⟨fun s hs w => ?_, fun s hs k w => ?_⟩⟩
    · exact ljoin_next_emits (hE q) hF ⟨s.left, s.right, s.finished, s.rkv⟩ hs w
    · exact ljoin_seek_emits (mg := mergeFunc) (hE q0) hF s hs k w

/-- Everything known about a row delivered by the complete chain of stages while the query is `q`. -/
def DeliveredQ (q0 q : Query) (fl : Option Src) (P : KV → Prop) (kv : KV) : Prop :=
  JoinsTo mergeFunc P (FillRow fl) kv ∧ (q0.bounds.any = true → timeMatch q.bounds false kv.2 = .ok true)

theorem GivesQ.times {M : QMach} {V : View} {P : Query → KV → Prop} (h : GivesQ M V P) (q0 : Query)
    (rm : Option (List Src)) (fl : Option Src) : GivesQ (liveTimes q0 rm fl M) V fun q => DeliveredQ q0 q fl (P q) := by
  unfold liveTimes
  split
  · have h1 := (((h.filterPure .filterTimePrefilter fun q => filterTime q.bounds true).mono
      (Q := P) fun q kv hk => hk.1).remove (q0 := q0) rm).fill (q0 := q0) fl
    exact (h1.filterPure .filterTime fun q => filterTime q.bounds false).mono fun q kv hk =>
      ⟨hk.1, fun _ => pass_of_verdict hk.2⟩
  · rename_i hb
    exact (h.fill fl).mono fun q kv hk => ⟨hk, fun h => absurd h hb⟩

theorem GivesQ.offset {M : QMach} {V : View} {P : Query → KV → Prop} (h : GivesQ M V P) (q0 : Query) :
    GivesQ (liveOffset q0 M) V P := by
  unfold liveOffset
  split
  · exact (h.filter _ _).mono fun q kv hk => hk.1
  · exact h

/-- What a state of a query iterator can still deliver. -/
def StInvQ {L : LiveBuilt} {q0 : Query} (P : View → Query → KV → Prop) : QSt (L.at q0) → Prop
  | .direct s => L.indirect = none ∧ ∃ Inv : L.source.St → Prop, Inv s ∧ EmitsQ L.source Inv (P L.view)
  | .indirect tb _ m => L.indirect = some tb ∧
      ∀ s, m = some s → ∃ k, ∃ Inv : L.source.St → Prop, Inv s ∧ EmitsQ L.source Inv (P (.pfx (tb :: k)))

theorem indirectLoop_keeps {q : Query} {tb : UInt8} {Y N : Mach} {G : N.St → Prop} {F : Entry → Prop}
    (h0 : ∀ k, G (N.start (.pfx (tb :: k))))
    (hd : ∀ s, G s → ∀ n w, G (directLoop N n s w).2.1 ∧ ∀ e, (directLoop N n s w).1 = .entry e → F e) :
    ∀ n i (m : Option N.St), (∀ s, m = some s → G s) → ∀ w,
      (∀ s, (indirectLoop q tb Y N n i m w).2.1.2 = some s → G s) ∧
      ∀ e, (indirectLoop q tb Y N n i m w).1 = .entry e → F e
  | 0, i, m, hm, w => by
    unfold indirectLoop
    exact ⟨hm, fun e h => by cases h⟩
  | n + 1, i, some s, hm, w => by
    have hd' := hd s (hm s rfl) (N.size s + 1) w
    unfold indirectLoop
    rcases hdl : directLoop N (N.size s + 1) s w with ⟨r, s1, w1⟩
    rw [hdl] at hd'
    have keep : ∀ s', some s1 = some s' → G s' := by
      intro s' h; cases h; exact hd'.1
    cases r with
    | failure => exact indirectLoop_keeps h0 hd n i none (fun s h => by cases h) w1
    | entry e => exact ⟨keep, fun e' h => hd'.2 e' h⟩
    | timeout => exact ⟨keep, fun e h => by cases h⟩
    | fault f => exact ⟨keep, fun e h => by cases h⟩
  | n + 1, i, none, hm, w => by
    have hnone : ∀ s : N.St, (none : Option N.St) = some s → G s := fun s h => by cases h
    unfold indirectLoop
    rcases hi : Y.next i w with ⟨r, i1, w1⟩
    cases r with
    | item kv =>
      simp only
      rcases hk : indirectKey q tb kv with (_ | k) | _ | f
      · exact indirectLoop_keeps h0 hd n i1 none hnone w1
      · obtain ⟨k', rfl⟩ := indirectKey_head hk
        exact indirectLoop_keeps h0 hd n i1 (some _) (fun s h => by cases h; exact h0 k') w1
      · exact ⟨hnone, fun e h => by cases h⟩
      · exact ⟨hnone, fun e h => by cases h⟩
    | done => exact ⟨hnone, fun e h => by cases h⟩
    | timeout => exact ⟨hnone, fun e h => by cases h⟩
    | fault f => exact ⟨hnone, fun e h => by cases h⟩

theorem indirectLoop_emitsQ {q : Query} {tb : UInt8} {Y : Mach} {M : QMach} {P : View → Query → KV → Prop}
    (hM : ∀ V, GivesQ M V (P V)) (n : Nat) (i : Y.St) (m : Option M.St)
    (hm : ∀ s, m = some s → ∃ k, ∃ Inv : M.St → Prop, Inv s ∧ EmitsQ M Inv (P (.pfx (tb :: k)))) (w : World) :
      (∀ s, (indirectLoop q tb Y (M.at q) n i m w).2.1.2 = some s →
        ∃ k, ∃ Inv : M.St → Prop, Inv s ∧ EmitsQ M Inv (P (.pfx (tb :: k)))) ∧
      ∀ e, (indirectLoop q tb Y (M.at q) n i m w).1 = .entry e →
        ∃ k kv, P (.pfx (tb :: k)) q kv ∧ entryDecode kv.1 kv.2 = .ok e := by
  refine indirectLoop_keeps (N := M.at q)
    (G := fun s => ∃ k, ∃ Inv : M.St → Prop, Inv s ∧ EmitsQ M Inv (P (.pfx (tb :: k)))) (fun k => ?_) ?_ n i m hm w
  · obtain ⟨I, h0, hE⟩ := hM (.pfx (tb :: k))
    exact ⟨k, I, h0, hE⟩
  · rintro s ⟨k, I, hI, hE⟩ n w
    have hd := directLoop_emits (hE q) n s hI w
    exact ⟨⟨k, I, hd.1, hE⟩, fun e h => by
      obtain ⟨kv, hp, hdec⟩ := hd.2 e h
      exact ⟨k, kv, hp, hdec⟩⟩

theorem liveNext_emits {q0 q : Query} {L : LiveBuilt} {P : View → Query → KV → Prop}
    (hM : ∀ V, GivesQ L.source V (P V)) {s : QSt (L.at q0)} (hs : StInvQ P s) (w : World) :
    StInvQ P (liveNext q0 L q s w).2.1 ∧ ∀ e, (liveNext q0 L q s w).1 = .entry e →
      ∃ V kv, Opened (L.at q0) V ∧ P V q kv ∧ entryDecode kv.1 kv.2 = .ok e := by
  cases s with
  | direct s =>
    obtain ⟨hB, I, hI, hE⟩ := hs
    have hd := directLoop_emits (hE q) (L.source.size s + 1) s hI (armTimer q.lim { w with offset := q.offset })
    exact ⟨⟨hB, I, hd.1, hE⟩, fun e h => by
      obtain ⟨kv, hp, hdec⟩ := hd.2 e h
      exact ⟨L.view, kv, .inl ⟨hB, rfl⟩, hp, hdec⟩⟩
  | indirect tb i m =>
    obtain ⟨hB, hm⟩ := hs
    have hd := indirectLoop_emitsQ (q := q) (Y := L.index.at q) hM (2 * L.index.size i + 3) i m hm
      (armTimer q.lim { w with offset := q.offset })
    exact ⟨⟨hB, hd.1⟩, fun e h => by
      obtain ⟨k, kv, hp, hdec⟩ := hd.2 e h
      exact ⟨_, kv, .inr ⟨tb, k, hB, rfl⟩, hp, hdec⟩⟩

theorem setter_rrtype {A : Arith} {T : Libs} {q q' : Query} {x : Setter} {b : Bool} (hq : q.rrtype < 65536)
    (h : applySetter A T q x = .ok (q', b)) : q'.rrtype < 65536 := by
  have raw : ∀ s, (setDataRaw q s).1.rrtype = q.rrtype := by
    intro s
    unfold setDataRaw
    dsimp only
    split
    · rfl
    · split
      · rfl
      · split <;> rfl
  have ver : ∀ s, (setVersionType q s).1.rrtype = q.rrtype := by
    intro s
    unfold setVersionType
    split
    · rfl
    · split
      · split <;> rfl
      · rfl
  have typ : ∀ q : Query, q.rrtype < 65536 → (withIpType q).rrtype < 65536 := by
    intro q hq
    unfold withIpType
    dsimp only
    split
    · decide
    · split
      · decide
      · exact hq
  cases x with
  | caseSensitive c => cases h; exact hq
  | aggregated c => cases h; exact hq
  | offset n => cases h; exact hq
  | timeout t => cases t <;> cases h <;> exact hq
  | deadline t => cases t <;> cases h <;> exact hq
  | filterParam a b c =>
    have e : (setFilterParameter q a b c).1 = q' := congrArg Prod.fst (Out.ok.inj h)
    subst e
    unfold setFilterParameter
    repeat' split
    all_goals exact hq
  | bailiwick s =>
    have e : (setBailiwick T q s).1 = q' := congrArg Prod.fst (Out.ok.inj h)
    subst e
    unfold setBailiwick
    repeat' split
    all_goals exact hq
  | rrtype s =>
    have e : (setRrtype T q s).1 = q' := congrArg Prod.fst (Out.ok.inj h)
    subst e
    unfold setRrtype
    split
    · exact hq
    · split
      · exact hq
      · dsimp only
        split
        · exact hq
        · exact Nat.mod_lt _ (by decide)
  | data s =>
    simp only [applySetter, setData] at h
    split at h
    · cases h; exact hq
    · cases h; exact hq
    · unfold setDataIp at h
      split at h
      · cases h; exact hq
      · split at h
        · have e := congrArg Prod.fst (Out.ok.inj h)
          dsimp only at e
          subst e
          unfold setDataRange
          split
          · split
            · exact hq
            · dsimp only
              split
              · exact hq
              · split
                · exact hq
                · exact typ _ hq
          · exact hq
        · split at h
          · unfold setDataPrefix at h
            split at h
            · split at h
              · cases h; exact hq
              · split at h
                · cases h; exact hq
                · split at h
                  · cases h; exact hq
                  · dsimp only at h
                    split at h
                    · obtain ⟨_, -, h⟩ := out_bind h
                      obtain ⟨_, -, h⟩ := out_bind h
                      cases h
                      show 1 < 65536
                      decide
                    · split at h
                      · obtain ⟨_, -, h⟩ := out_bind h
                        obtain ⟨_, -, h⟩ := out_bind h
                        cases h
                        show 28 < 65536
                        decide
                      · cases h; exact hq
            · cases h; exact hq
          · have e := congrArg Prod.fst (Out.ok.inj h)
            dsimp only at e
            subst e
            unfold setDataAddress
            dsimp only
            split
            · exact hq
            · exact typ _ hq
    · have e : (setDataRaw q s).1 = q' := congrArg Prod.fst (Out.ok.inj h)
      rw [← e, raw]; exact hq
    · have e : (setVersionType q s).1 = q' := congrArg Prod.fst (Out.ok.inj h)
      rw [← e, ver]; exact hq
    · cases h; exact hq

theorem liveRun_emits {A : Arith} {T : Libs} {q0 : Query} {L : LiveBuilt} {P : View → Query → KV → Prop}
    (hM : ∀ V, GivesQ L.source V (P V)) : ∀ (os : List LiveOp) (q : Query) (s : QSt (L.at q0)), StInvQ P s →
      q.rrtype < 65536 → ∀ (w : World), ∀ c ∈ liveRun A T q0 L os q s w, c.query.rrtype < 65536 ∧
        ∀ e, c.res = .entry e → ∃ V kv, Opened (L.at q0) V ∧ P V c.query kv ∧ entryDecode kv.1 kv.2 = .ok e
  | [], _, s, _, _, w, c, hc => by cases hc
  | .set x :: os, q, s, hs, hq, w, c, hc => by
    unfold liveRun at hc
    split at hc
    · rename_i e
      exact liveRun_emits hM os _ s hs (setter_rrtype hq e) w c hc
    · cases hc
  | .next :: os, q, s, hs, hq, w, c, hc => by
    have hn := liveNext_emits (q := q) hM hs w
    unfold liveRun at hc
    cases hc with
    | head => exact ⟨hq, hn.2⟩
    | tail _ hc =>
      exact liveRun_emits hM os _ _ hn.1 (show (liveNext q0 L q s w).2.2.1.rrtype < 65536 from hq) _ c hc

theorem live_start_inv {q0 : Query} {L : LiveBuilt} {P : View → Query → KV → Prop} (hM : ∀ V, GivesQ L.source V (P V)) :
    StInvQ (L := L) (q0 := q0) P (L.at q0).start := by
  unfold Built.start
  rcases hB : (L.at q0).indirect with _ | tb
  · obtain ⟨I, h0, hE⟩ := hM L.view
    exact ⟨hB, I, h0, hE⟩
  · exact ⟨hB, fun s h => by cases h⟩

/-- Every entry returned comes from a row of a view the iterator opened, which passed its filters as they are with the
query at that time. -/
theorem live_emits {A : Arith} {T : Libs} (q0 : Query) (R : Src) (index : Mach) (rm : Option (List Src)) (fl : Option Src)
    (p : Plan) (os : List LiveOp) (w : World) (hq : q0.rrtype < 65536) {c : LiveCall}
    (hc : c ∈ liveRun A T q0 (liveAssemble q0 ⟨R.mach, index, rm, fl⟩ p) os q0
      ((liveAssemble q0 ⟨R.mach, index, rm, fl⟩ p).at q0).start w) :
    c.query.rrtype < 65536 ∧ ∀ e, c.res = .entry e →
    ∃ V kv, Opened ((liveAssemble q0 ⟨R.mach, index, rm, fl⟩ p).at q0) V ∧
      DeliveredQ q0 c.query fl (fun kv => (kv ∈ R.rows ∧ V.ok kv.1 = true) ∧
        ∀ f ∈ p.onSource, liveFilter q0 p.view.lo.length f c.query kv = .pass) kv ∧
      entryDecode kv.1 kv.2 = .ok e := by
  have hM : ∀ V, GivesQ (liveAssemble q0 ⟨R.mach, index, rm, fl⟩ p).source V
      (fun q => DeliveredQ q0 q fl fun kv => (kv ∈ R.rows ∧ V.ok kv.1 = true) ∧
        ∀ f ∈ p.onSource, liveFilter q0 p.view.lo.length f q kv = .pass) := fun V =>
    (((givesQ_timeout q0 R V).filters p.onSource).times q0 rm fl).offset q0
  exact liveRun_emits hM os q0 _ (live_start_inv hM) hq w c hc

end Verif
