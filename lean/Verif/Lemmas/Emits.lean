import Verif.Spec.QueryRuns
import Verif.Lemmas.QueryCore

/-!
# What the stages of a query can deliver

Statements of the form "every entry delivered satisfies `P`", for arbitrary tables and executions.
-/

namespace Verif
open Spec

/-- In states satisfying `Inv`, which calls preserve, only rows satisfying `P` are delivered. -/
structure Emits (M : Mach) (Inv : M.St → Prop) (P : KV → Prop) : Prop where
  next : ∀ s, Inv s → ∀ w, Inv (M.next s w).2.1 ∧ ∀ kv, (M.next s w).1 = .item kv → P kv
  seek : ∀ s, Inv s → ∀ k w, Inv (M.seek s k w).2.1

/-- Iterators of the view only deliver rows satisfying `P`. -/
def Gives (M : Mach) (V : View) (P : KV → Prop) : Prop :=
  ∃ Inv : M.St → Prop, Inv (M.start V) ∧ Emits M Inv P

theorem gives_cur (T : Table) (sf : View → Bytes → Bool) (V : View) :
    Gives (curM T sf) V fun kv => kv ∈ T ∧ V.ok kv.1 = true := by
  refine ⟨fun s => s.1 = V ∧ ∀ kv ∈ s.2, kv ∈ T, ⟨rfl, fun kv h => ?_⟩, ⟨?_, ?_⟩⟩
  · exact (List.dropWhile_suffix _).mem h
  · rintro ⟨V', L⟩ ⟨rfl, hL⟩ w
    cases L with
    | nil => exact ⟨⟨rfl, hL⟩, fun kv h => by cases h⟩
    | cons x r =>
      by_cases hx : V'.ok x.1 = true
      · have : (curM T sf).next (V', x :: r) w = (.item x, (V', r), w) := by simp [curM, hx]
        rw [this]
        refine ⟨⟨rfl, fun kv h => hL kv (List.mem_cons_of_mem _ h)⟩, fun kv h => ?_⟩
        cases h
        exact ⟨hL x List.mem_cons_self, hx⟩
      · have : (curM T sf).next (V', x :: r) w = (.done, (V', x :: r), w) := by simp [curM, hx]
        rw [this]
        exact ⟨⟨rfl, hL⟩, fun kv h => by cases h⟩
  · rintro ⟨V', L⟩ ⟨rfl, hL⟩ k w
    exact ⟨rfl, fun kv h => (List.dropWhile_suffix _).mem h⟩

theorem Gives.mono {M : Mach} {V : View} {P Q : KV → Prop} (h : Gives M V P) (hpq : ∀ kv, P kv → Q kv) :
    Gives M V Q := by
  obtain ⟨I, h0, hE⟩ := h
  exact ⟨I, h0, fun s hs w => ⟨(hE.next s hs w).1, fun kv hk => hpq kv ((hE.next s hs w).2 kv hk)⟩, hE.seek⟩

theorem Gives.timeout {M : Mach} {V : View} {P : KV → Prop} (h : Gives M V P) :
    Gives (timeoutM M) V P := by
  obtain ⟨I, h0, hE⟩ := h
  refine ⟨I, h0, ?_, hE.seek⟩
  intro s hs w
  simp only [timeoutM]
  split
  · split
    · exact ⟨hs, fun kv h => by cases h⟩
    · exact ⟨hs, fun kv h => by cases h⟩
  · exact hE.next s hs _

theorem filterLoop_emits {M : Mach} {I : M.St → Prop} {P : KV → Prop} (hE : Emits M I P) (g : Stage)
    (f : FilterFn) : ∀ n s, I s → ∀ w, I (filterLoop g f M n s w).2.1 ∧
      ∀ kv, (filterLoop g f M n s w).1 = .item kv → P kv ∧ ∃ w, (f w kv).1 = .pass
  | 0, s, hs, w => ⟨hs, fun kv h => by cases h⟩
  | n + 1, s, hs, w => by
    have hn := hE.next s hs w
    unfold filterLoop
    rcases hm : M.next s w with ⟨r, s1, w1⟩
    rw [hm] at hn
    cases r with
    | item kv =>
      rcases hf : f w1 kv with ⟨v, w2⟩
      cases v with
      | pass =>
        simp only [hf]
        exact ⟨hn.1, fun kv' h => by cases h; exact ⟨hn.2 kv rfl, w1, by rw [hf]⟩⟩
      | drop => simp only [hf]; exact filterLoop_emits hE g f n s1 hn.1 _
      | seekTo k =>
        simp only [hf]
        have hk := hE.seek s1 hn.1 k (w2.upd g fun c => { c with seek := c.seek + 1 })
        rcases hsk : M.seek s1 k (w2.upd g fun c => { c with seek := c.seek + 1 }) with ⟨ok, s2, w3⟩
        rw [hsk] at hk
        cases ok with
        | true => exact filterLoop_emits hE g f n s2 hk _
        | false => exact ⟨hk, fun kv h => by cases h⟩
      | stop => simp only [hf]; exact ⟨hn.1, fun kv h => by cases h⟩
      | fault e => simp only [hf]; exact ⟨hn.1, fun kv h => by cases h⟩
    | done => exact ⟨hn.1, fun kv h => by cases h⟩
    | timeout => exact ⟨hn.1, fun kv h => by cases h⟩
    | fault e => exact ⟨hn.1, fun kv h => by cases h⟩

theorem Gives.filter {M : Mach} {V : View} {P : KV → Prop} (h : Gives M V P) (g : Stage) (f : FilterFn) :
    Gives (filterM g f M) V fun kv => P kv ∧ ∃ w, (f w kv).1 = .pass := by
  obtain ⟨I, h0, hE⟩ := h
  exact ⟨I, h0, fun s hs w => filterLoop_emits hE g f _ s hs w, hE.seek⟩

theorem Gives.filterPure {M : Mach} {V : View} {P : KV → Prop} (h : Gives M V P) (g : Stage)
    (f : KV → Verdict) : Gives (filterM g (pureF f) M) V fun kv => P kv ∧ f kv = .pass :=
  (h.filter g (pureF f)).mono fun _ ⟨hp, _, hf⟩ => ⟨hp, hf⟩

theorem Gives.filters {M : Mach} {V : View} {P : KV → Prop} (h : Gives M V P) (fs : List Filt) :
    Gives (withFilters fs M) V fun kv => P kv ∧ ∀ f ∈ fs, f.2 kv = .pass := by
  induction fs generalizing M P with
  | nil => exact h.mono fun kv hp => ⟨hp, fun f hf => by cases hf⟩
  | cons f fs ih =>
    refine (ih (h.filterPure f.1 f.2)).mono ?_
    rintro kv ⟨⟨hp, hf⟩, hfs⟩
    exact ⟨hp, fun g hg => by
      cases hg with
      | head => exact hf
      | tail _ hg => exact hfs g hg⟩

theorem removeLoop_emits {M : Mach} {I : M.St → Prop} {P : KV → Prop} (hE : Emits M I P) :
    ∀ n (s : RemoveSt M), I s.up → ∀ w, I (removeLoop M n s w).2.1.up ∧
      ∀ kv, (removeLoop M n s w).1 = .item kv → P kv
  | 0, s, hs, w => ⟨hs, fun kv h => by cases h⟩
  | n + 1, s, hs, w => by
    have hn := hE.next s.up hs w
    unfold removeLoop
    rcases hm : M.next s.up w with ⟨r, s1, w1⟩
    rw [hm] at hn
    cases r with
    | item kv =>
      rcases hk : matchKey s.view kv.1 [] s.entries w1 with ⟨b, es, w2⟩
      rcases b with _ | _ | _
      · simp only [hk]; exact ⟨hn.1, fun kv h => by cases h⟩
      · simp only [hk]; exact ⟨hn.1, fun kv' h => by cases h; exact hn.2 kv rfl⟩
      · simp only [hk]; exact removeLoop_emits hE n _ hn.1 w2
    | done => exact ⟨hn.1, fun kv h => by cases h⟩
    | timeout => exact ⟨hn.1, fun kv h => by cases h⟩
    | fault e => exact ⟨hn.1, fun kv h => by cases h⟩

theorem Gives.remove {M : Mach} {V : View} {P : KV → Prop} (h : Gives M V P) (rm : Option (List Src)) :
    Gives (withRemove rm M) V P := by
  cases rm with
  | none => exact h
  | some l =>
    obtain ⟨I, h0, hE⟩ := h
    exact ⟨fun s => I s.up, h0, fun s hs w => removeLoop_emits hE _ s hs w,
      fun s hs k w => hE.seek s.up hs k _⟩

/-- What a left join makes of rows satisfying `P` and rows satisfying `Q` on the right. -/
def JoinsTo (merge : MergeFn) (P Q : KV → Prop) (kv : KV) : Prop :=
  P kv ∨ ∃ v r, P (kv.1, v) ∧ Q r ∧ bytesCompare r.1 kv.1 = .eq ∧ merge kv.1 v r.2 = .ok kv.2

/-- Invariant of the join. -/
def JoinInv {L R : Mach} (I : L.St → Prop) (J : R.St → Prop) (Q : KV → Prop) (s : LjoinSt L R) : Prop :=
  I s.left ∧ J s.right ∧ ∀ r, s.rkv = some r → Q r

theorem ljoinFetch_emits {L R : Mach} {I : L.St → Prop} {J : R.St → Prop} {Q : KV → Prop}
    (hR : Emits R J Q) (s : LjoinSt L R) (hs : JoinInv I J Q s) (w : World) :
    JoinInv I J Q (ljoinFetch L R s w).2.1 ∧
      ∀ r, (ljoinFetch L R s w).1 = .item r → Q r := by
  unfold ljoinFetch
  rcases hk : s.rkv with _ | r
  · have hn := hR.next s.right hs.2.1 w
    rcases hm : R.next s.right w with ⟨x, sr, w1⟩
    rw [hm] at hn
    cases x with
    | item r =>
      exact ⟨⟨hs.1, hn.1, fun r' h => by cases h; exact hn.2 r rfl⟩, fun r' h => by cases h; exact hn.2 r rfl⟩
    | done => exact ⟨⟨hs.1, hn.1, fun r h => by cases h⟩, fun r h => by cases h⟩
    | timeout => exact ⟨⟨hs.1, hn.1, fun r h => by cases h⟩, fun r h => by cases h⟩
    | fault e => exact ⟨⟨hs.1, hn.1, fun r h => by cases h⟩, fun r h => by cases h⟩
  · exact ⟨hs, fun r' h => by cases h; exact hs.2.2 r hk⟩

theorem ljoinLoop_emits {mg : MergeFn} {L R : Mach} {I : L.St → Prop} {J : R.St → Prop} {P Q : KV → Prop}
    (hR : Emits R J Q) (kv : KV) (hkv : P kv) : ∀ n (s : LjoinSt L R), JoinInv I J Q s → ∀ w,
      JoinInv I J Q (ljoinLoop mg L R kv n s w).2.1 ∧
        ∀ x, (ljoinLoop mg L R kv n s w).1 = .item x → JoinsTo mg P Q x
  | 0, s, hs, w => ⟨hs, fun kv h => by cases h⟩
  | n + 1, s, hs, w => by
    unfold ljoinLoop
    split
    · exact ⟨hs, fun x h => by cases h; exact .inl hkv⟩
    · have hf := ljoinFetch_emits (I := I) hR s hs w
      rcases hm : ljoinFetch L R s w with ⟨x, s1, w1⟩
      rw [hm] at hf
      cases x with
      | item r =>
        simp only
        unfold ljoinCompare
        rcases hc : bytesCompare r.1 kv.1 with _ | _ | _
        · simp only
          have hk := hR.seek s1.right hf.1.2.1 kv.1 w1
          rcases hsk : R.seek s1.right kv.1 w1 with ⟨ok, sr, w2⟩
          rw [hsk] at hk
          cases ok with
          | true => exact ljoinLoop_emits hR kv hkv n { s1 with right := sr, rkv := none } ⟨hf.1.1, hk, fun r h => by cases h⟩ _
          | false => exact ⟨⟨hf.1.1, hk, hf.1.2.2⟩, fun x h => by cases h; exact .inl hkv⟩
        · simp only
          rcases hmg : mg kv.1 kv.2 r.2 with v | _ | e
          · refine ⟨hf.1, fun x h => ?_⟩
            cases h
            exact .inr ⟨kv.2, r, hkv, hf.2 r rfl, hc, hmg⟩
          · exact ⟨hf.1, fun x h => by cases h⟩
          · exact ⟨hf.1, fun x h => by cases h⟩
        · exact ⟨hf.1, fun x h => by cases h; exact .inl hkv⟩
      | done => exact ⟨⟨hf.1.1, hf.1.2.1, hf.1.2.2⟩, fun x h => by cases h; exact .inl hkv⟩
      | timeout => exact ⟨hf.1, fun x h => by cases h⟩
      | fault e => exact ⟨hf.1, fun x h => by cases h⟩

theorem Gives.ljoin {mg : MergeFn} {L R : Mach} {V : View} {P Q : KV → Prop} (hL : Gives L V P)
    (hR : Gives R V Q) : Gives (ljoinM mg L R) V (JoinsTo mg P Q) := by
  obtain ⟨I, h0, hE⟩ := hL
  obtain ⟨J, k0, hF⟩ := hR
  refine ⟨JoinInv I J Q, ⟨h0, k0, fun r h => by cases h⟩, ?_, ?_⟩
  · intro s hs w
    have hn := hE.next s.left hs.1 w
    simp only [ljoinM]
    rcases hm : L.next s.left w with ⟨r, sl, w1⟩
    rw [hm] at hn
    cases r with
    | item kv => exact ljoinLoop_emits hF kv (hn.2 kv rfl) _ { s with left := sl } ⟨hn.1, hs.2.1, hs.2.2⟩ _
    | done => exact ⟨⟨hn.1, hs.2⟩, fun x h => by cases h⟩
    | timeout => exact ⟨⟨hn.1, hs.2⟩, fun x h => by cases h⟩
    | fault e => exact ⟨⟨hn.1, hs.2⟩, fun x h => by cases h⟩
  · intro s hs k w
    have hk := hE.seek s.left hs.1 k w
    simp only [ljoinM]
    rcases hm : L.seek s.left k w with ⟨ok, sl, w1⟩
    rw [hm] at hk
    cases ok with
    | false => exact ⟨hk, hs.2⟩
    | true => exact ⟨hk, hF.seek s.right hs.2.1 k w1, fun r h => by cases h⟩

/-- Rows that can be joined in from the fill merger. -/
def FillRow (fl : Option Src) (kv : KV) : Prop := ∃ F, fl = some F ∧ kv ∈ F.rows

theorem Gives.fill {M : Mach} {V : View} {P : KV → Prop} (h : Gives M V P) (fl : Option Src) :
    Gives (withFill fl M) V (JoinsTo mergeFunc P (FillRow fl)) := by
  cases fl with
  | none => exact h.mono fun kv hp => .inl hp
  | some F =>
    exact h.ljoin ((gives_cur F.rows F.seekFails V).mono fun kv hk => ⟨F, rfl, hk.1⟩)

/-- Everything known about a row delivered by the complete chain of stages. -/
def Delivered (q : Query) (fl : Option Src) (P : KV → Prop) (kv : KV) : Prop :=
  JoinsTo mergeFunc P (FillRow fl) kv ∧ (q.bounds.any = true → timeMatch q.bounds false kv.2 = .ok true)

theorem pass_of_verdict {o : Out Bool} (h : verdictOf o = .pass) : o = .ok true := by
  rcases o with (_ | _) | _ | _ <;> first | rfl | cases h

theorem Gives.times {M : Mach} {V : View} {P : KV → Prop} (h : Gives M V P) (q : Query)
    (rm : Option (List Src)) (fl : Option Src) : Gives (withTimes q rm fl M) V (Delivered q fl P) := by
  unfold withTimes
  split
  · have h1 := (((h.filterPure .filterTimePrefilter (filterTime q.bounds true)).mono
      (Q := P) fun kv hk => hk.1).remove rm).fill fl
    exact (h1.filterPure .filterTime (filterTime q.bounds false)).mono fun kv hk =>
      ⟨hk.1, fun _ => pass_of_verdict hk.2⟩
  · rename_i hb
    exact (h.fill fl).mono fun kv hk => ⟨hk, fun h => absurd h hb⟩

theorem Gives.offset {M : Mach} {V : View} {P : KV → Prop} (h : Gives M V P) (q : Query) :
    Gives (withOffset q M) V P := by
  unfold withOffset
  split
  · exact (h.filter _ _).mono fun kv hk => hk.1
  · exact h

/-- The views a query opens on its main source. -/
def Opened (B : Built) (V : View) : Prop :=
  (B.indirect = none ∧ V = B.view) ∨ ∃ tb k, B.indirect = some tb ∧ V = .pfx (tb :: k)

/-- What a state of a query iterator can still deliver. -/
def StInv {B : Built} (P : View → KV → Prop) : QSt B → Prop
  | .direct s => B.indirect = none ∧ ∃ Inv, Inv s ∧ Emits B.source Inv (P B.view)
  | .indirect tb _ m => B.indirect = some tb ∧
      ∀ s, m = some s → ∃ k Inv, Inv s ∧ Emits B.source Inv (P (.pfx (tb :: k)))

theorem directLoop_emits {M : Mach} {I : M.St → Prop} {P : KV → Prop} (hE : Emits M I P) :
    ∀ n s, I s → ∀ w, I (directLoop M n s w).2.1 ∧
      ∀ e, (directLoop M n s w).1 = .entry e → ∃ kv, P kv ∧ entryDecode kv.1 kv.2 = .ok e
  | 0, s, hs, w => ⟨hs, fun e h => by cases h⟩
  | n + 1, s, hs, w => by
    have hn := hE.next s hs w
    unfold directLoop
    rcases hm : M.next s w with ⟨r, s1, w1⟩
    rw [hm] at hn
    cases r with
    | item kv =>
      rcases hd : entryDecode kv.1 kv.2 with e | _ | f
      · simp only [hd]
        exact ⟨hn.1, fun e' h => by cases h; exact ⟨kv, hn.2 kv rfl, hd⟩⟩
      · simp only [hd]; exact directLoop_emits hE n s1 hn.1 w1
      · simp only [hd]; exact ⟨hn.1, fun e' h => by cases h⟩
    | done => exact ⟨hn.1, fun e h => by cases h⟩
    | timeout => exact ⟨hn.1, fun e h => by cases h⟩
    | fault f => exact ⟨hn.1, fun e h => by cases h⟩

theorem indirectKey_head {q : Query} {tb : UInt8} {kv : KV} {k : Bytes}
    (h : indirectKey q tb kv = .ok (some k)) : ∃ k', k = tb :: k' := by
  unfold indirectKey at h
  have hbind : ∀ {α β : Type} {x : Out α} {f : α → Out β} {b : β}, (x >>= f) = .ok b →
      ∃ a, x = .ok a ∧ f a = .ok b := by
    intro α β x f b h
    cases x with
    | ok a => exact ⟨a, rfl, h⟩
    | fail => cases h
    | fault e => cases h
  have hjp : ∀ skip : Bool, (if skip = true then Out.ok none
      else do
        let rev ← reverseName (List.drop 1 kv.fst)
        let k ← indirectType q tb (tb :: rev)
        Out.ok (some k)) = Out.ok (some k) → ∃ k', k = tb :: k' := by
    intro skip h
    cases skip with
    | true => cases h
    | false =>
      obtain ⟨rev, -, h⟩ := hbind h
      obtain ⟨k1, hk1, h⟩ := hbind h
      cases h
      unfold indirectType addRrtype at hk1
      split at hk1
      · split at hk1
        · cases hk1
        · cases hk1; exact ⟨_, rfl⟩
      · split at hk1
        · split at hk1
          · cases hk1
          · cases hk1; exact ⟨_, rfl⟩
        · cases hk1; exact ⟨_, rfl⟩
  simp only at h
  split at h
  · obtain ⟨b, -, h⟩ := hbind h
    exact hjp (!b) h
  · exact hjp false h

theorem indirectLoop_emits {q : Query} {tb : UInt8} {Y M : Mach} {P : View → KV → Prop}
    (hM : ∀ V, Gives M V (P V)) : ∀ n i (m : Option M.St),
      (∀ s, m = some s → ∃ k Inv, Inv s ∧ Emits M Inv (P (.pfx (tb :: k)))) → ∀ w,
      (∀ s, (indirectLoop q tb Y M n i m w).2.1.2 = some s →
        ∃ k Inv, Inv s ∧ Emits M Inv (P (.pfx (tb :: k)))) ∧
      ∀ e, (indirectLoop q tb Y M n i m w).1 = .entry e →
        ∃ k kv, P (.pfx (tb :: k)) kv ∧ entryDecode kv.1 kv.2 = .ok e
  | 0, i, m, hm, w => by
    unfold indirectLoop
    exact ⟨hm, fun e h => by cases h⟩
  | n + 1, i, some s, hm, w => by
    obtain ⟨k, I, hI, hE⟩ := hm s rfl
    have hd := directLoop_emits hE (M.size s + 1) s hI w
    unfold indirectLoop
    rcases hdl : directLoop M (M.size s + 1) s w with ⟨r, s1, w1⟩
    rw [hdl] at hd
    have keep : ∀ s', some s1 = some s' → ∃ k Inv, Inv s' ∧ Emits M Inv (P (.pfx (tb :: k))) := by
      intro s' h; cases h; exact ⟨k, I, hd.1, hE⟩
    cases r with
    | failure => exact indirectLoop_emits hM n i none (fun s h => by cases h) w1
    | entry e =>
      exact ⟨keep, fun e' h => by
        cases h
        obtain ⟨kv, hp, hdec⟩ := hd.2 e rfl
        exact ⟨k, kv, hp, hdec⟩⟩
    | timeout => exact ⟨keep, fun e h => by cases h⟩
    | fault f => exact ⟨keep, fun e h => by cases h⟩
  | n + 1, i, none, hm, w => by
    have hnone : ∀ s : M.St, (none : Option M.St) = some s →
        ∃ k Inv, Inv s ∧ Emits M Inv (P (.pfx (tb :: k))) := fun s h => by cases h
    unfold indirectLoop
    rcases hi : Y.next i w with ⟨r, i1, w1⟩
    cases r with
    | item kv =>
      simp only
      rcases hk : indirectKey q tb kv with (_ | k) | _ | f
      · exact indirectLoop_emits hM n i1 none hnone w1
      · obtain ⟨k', rfl⟩ := indirectKey_head hk
        obtain ⟨I, h0, hE⟩ := hM (.pfx (tb :: k'))
        exact indirectLoop_emits hM n i1 (some _) (fun s h => by cases h; exact ⟨k', I, h0, hE⟩) w1
      · exact ⟨hnone, fun e h => by cases h⟩
      · exact ⟨hnone, fun e h => by cases h⟩
    | done => exact ⟨hnone, fun e h => by cases h⟩
    | timeout => exact ⟨hnone, fun e h => by cases h⟩
    | fault f => exact ⟨hnone, fun e h => by cases h⟩

theorem queryNext_emits {q : Query} {B : Built} {P : View → KV → Prop}
    (hM : ∀ V, Gives B.source V (P V)) {s : QSt B} (hs : StInv P s) (w : World) :
    StInv P (queryNext q B s w).2.1 ∧ ∀ e, (queryNext q B s w).1 = .entry e →
      ∃ V kv, Opened B V ∧ P V kv ∧ entryDecode kv.1 kv.2 = .ok e := by
  cases s with
  | direct s =>
    obtain ⟨hB, I, hI, hE⟩ := hs
    have hd := directLoop_emits hE (B.source.size s + 1) s hI (armTimer q.lim w)
    exact ⟨⟨hB, I, hd.1, hE⟩, fun e h => by
      obtain ⟨kv, hp, hdec⟩ := hd.2 e h
      exact ⟨B.view, kv, .inl ⟨hB, rfl⟩, hp, hdec⟩⟩
  | indirect tb i m =>
    obtain ⟨hB, hm⟩ := hs
    have hd := indirectLoop_emits (q := q) (Y := B.index) hM (2 * B.index.size i + 3) i m hm (armTimer q.lim w)
    exact ⟨⟨hB, hd.1⟩, fun e h => by
      obtain ⟨k, kv, hp, hdec⟩ := hd.2 e h
      exact ⟨_, kv, .inr ⟨tb, k, hB, rfl⟩, hp, hdec⟩⟩

theorem start_inv {B : Built} {P : View → KV → Prop} (hM : ∀ V, Gives B.source V (P V)) :
    StInv P B.start := by
  unfold Built.start
  rcases hB : B.indirect with _ | tb
  · obtain ⟨I, h0, hE⟩ := hM B.view
    exact ⟨hB, I, h0, hE⟩
  · exact ⟨hB, fun s h => by cases h⟩

theorem queryRun_emits {q : Query} {B : Built} {P : View → KV → Prop}
    (hM : ∀ V, Gives B.source V (P V)) : ∀ (ls : List Limits) (s : QSt B), StInv P s → ∀ (w : World),
      ∀ c ∈ queryRun q B ls s w, ∀ e, c.res = .entry e →
        ∃ V kv, Opened B V ∧ P V kv ∧ entryDecode kv.1 kv.2 = .ok e
  | [], s, _, w, c, hc, e, he => by cases hc
  | l :: ls, s, hs, w, c, hc, e, he => by
    have hn := queryNext_emits (q := { q with lim := l }) hM hs w
    unfold queryRun at hc
    cases hc with
    | head => exact hn.2 e he
    | tail _ hc => exact queryRun_emits hM ls _ hn.1 _ c hc e he

/-- Every entry returned by a query comes from a row of a view it opened, which passed its filters
and is as `Delivered` says. -/
theorem query_emits (q : Query) (R : Src) (index : Mach) (rm : Option (List Src)) (fl : Option Src)
    (p : Plan) (ls : List Limits) (w : World) {c : Call}
    (hc : c ∈ queryRun q (assemble q ⟨R.mach, index, rm, fl⟩ p) ls (assemble q ⟨R.mach, index, rm, fl⟩ p).start w)
    {e : Entry} (he : c.res = .entry e) :
    ∃ V kv, Opened (assemble q ⟨R.mach, index, rm, fl⟩ p) V ∧
      Delivered q fl (fun kv => (kv ∈ R.rows ∧ V.ok kv.1 = true) ∧ ∀ f ∈ p.onSource, f.2 kv = .pass) kv ∧
      entryDecode kv.1 kv.2 = .ok e := by
  have hM : ∀ V, Gives (assemble q ⟨R.mach, index, rm, fl⟩ p).source V
      (Delivered q fl fun kv => (kv ∈ R.rows ∧ V.ok kv.1 = true) ∧ ∀ f ∈ p.onSource, f.2 kv = .pass) := by
    intro V
    have h0 : Gives (withTimeout q R.mach) V fun kv => kv ∈ R.rows ∧ V.ok kv.1 = true := by
      unfold withTimeout
      split
      · exact (gives_cur R.rows R.seekFails V).timeout
      · exact gives_cur R.rows R.seekFails V
    exact ((h0.filters p.onSource).times q rm fl).offset q
  exact queryRun_emits hM ls _ (start_inv hM) w c hc e he

end Verif
