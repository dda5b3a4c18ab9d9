import Verif.Spec.QueryRuns
import Verif.Lemmas.Ljoin
import Verif.Lemmas.Remove

/-!
# From rows to query results
-/

namespace Verif
open Spec

/-- As `Frame`, but the offset may have changed. -/
structure TimeFrame (w w' : World) : Prop where
  clock : w'.clock = w.clock
  deadline : w'.deadline = w.deadline
  armed : w'.armed = w.armed
  tick : w.tick ≤ w'.tick

theorem Frame.time {w w' : World} (h : Frame w w') : TimeFrame w w' :=
  ⟨h.clock, h.deadline, h.armed, h.tick⟩

theorem TimeFrame.refl (w : World) : TimeFrame w w := ⟨rfl, rfl, rfl, Nat.le_refl _⟩

theorem TimeFrame.trans {a b c : World} (h1 : TimeFrame a b) (h2 : TimeFrame b c) : TimeFrame a c :=
  ⟨h2.clock.trans h1.clock, h2.deadline.trans h1.deadline, h2.armed.trans h1.armed,
    Nat.le_trans h1.tick h2.tick⟩

theorem TimeFrame.calm {a b c : World} (hf : TimeFrame a b) (h1 : Calm a b) (h2 : Calm b c) :
    Calm a c := by
  intro i hi hc
  by_cases hb : i < b.tick
  · exact h1 i hi hb
  · have := h2 i (by omega) hc
    rwa [hf.clock, hf.deadline] at this

theorem TimeFrame.expired {a b c : World} (hf : TimeFrame a b) (h1 : Calm a b) (h2 : Expired b c) :
    Expired a c := by
  obtain ⟨i, e, hb, hg, hj⟩ := h2
  have := hf.tick
  refine ⟨i, e, by omega, by rwa [hf.clock, hf.deadline] at hg, fun j h3 h4 => ?_⟩
  by_cases hjb : j < b.tick
  · exact h1 j h3 hjb
  · have := hj j (by omega) h4
    rwa [hf.clock, hf.deadline] at this

/-- The rows of `X` left after the offset (if the offset stage is installed). -/
def afterOffset {α : Type} (b : Bool) (w : World) (X : List α) : List α :=
  X.drop (if b then w.offset else 0)

/-- What a `next` call on the stage on top does. -/
def TopSpec (t b : Bool) (L : Table) (w : World) (r : Res) (w' : World)
    (after : Table → Prop) : Prop :=
  TimeFrame w w' ∧
  ((r = .timeout ∧ t = true ∧ Expired w w' ∧ ∃ L', after L' ∧
      (∃ k, L' = L.drop k) ∧ (∀ X, afterOffset b w (L ++ X) = afterOffset b w' (L' ++ X))) ∨
   (Calm w w' ∧ (t = true → w.tick < w'.tick) ∧
     ((r = .done ∧ after [] ∧ ∀ X, afterOffset b w (L ++ X) = afterOffset b w' X) ∨
      ∃ kv L', r = .item kv ∧ after L' ∧ L'.length < L.length ∧
        (∃ k, L.drop k = kv :: L') ∧
        ∀ X, afterOffset b w (L ++ X) = kv :: afterOffset b w' (L' ++ X))))

theorem TopSpec.chain {t b : Bool} {L L2 : Table} {w w2 w3 : World} {r : Res} {after : Table → Prop}
    (hf : TimeFrame w w2) (hc : Calm w w2) (hl : L2.length ≤ L.length)
    (hd : ∃ k, L2 = L.drop k)
    (he : ∀ X, afterOffset b w (L ++ X) = afterOffset b w2 (L2 ++ X))
    (h : TopSpec t b L2 w2 r w3 after) : TopSpec t b L w r w3 after := by
  obtain ⟨hf3, h⟩ := h
  refine ⟨hf.trans hf3, ?_⟩
  rcases h with ⟨hr, ht, hex, L', ha, hk, hX⟩ | ⟨hc3, htk, ⟨hr, ha, hX⟩ | ⟨kv, L', hr, ha, hlt, hk, hX⟩⟩
  · refine .inl ⟨hr, ht, hf.expired hc hex, L', ha, ?_, fun X => (he X).trans (hX X)⟩
    obtain ⟨k, rfl⟩ := hd
    obtain ⟨k2, rfl⟩ := hk
    exact ⟨k + k2, by rw [← List.drop_drop]⟩
  · exact .inr ⟨hf.calm hc hc3, fun h => Nat.lt_of_le_of_lt hf.tick (htk h), .inl ⟨hr, ha, fun X => (he X).trans (hX X)⟩⟩
  · refine .inr ⟨hf.calm hc hc3, fun h => Nat.lt_of_le_of_lt hf.tick (htk h), .inr ⟨kv, L', hr, ha, by omega, ?_, fun X => (he X).trans (hX X)⟩⟩
    obtain ⟨k, rfl⟩ := hd
    obtain ⟨k2, hk⟩ := hk
    exact ⟨k + k2, by rw [← List.drop_drop]; exact hk⟩

/-- Without the offset stage. -/
theorem top_plain {M : Mach} {t : Bool} {R : M.St → Bytes → Table → Prop} (hS : Sim M t R)
    {s : M.St} {lo : Bytes} {L : Table} (w : World) (hR : R s lo L) (ha : t = true → w.armed = true) :
    TopSpec t false L w (M.next s w).1 (M.next s w).2.2
      (fun L' => ∃ lo', R (M.next s w).2.1 lo' L') := by
  obtain ⟨hf, h⟩ := hS.next w hR ha
  refine ⟨hf.time, ?_⟩
  simp only [afterOffset, Bool.false_eq_true, if_false, List.drop_zero]
  rcases h with ⟨hr, ht, hex, lo', -, hR'⟩ | ⟨hc, htk, ⟨hr, rfl, lo', -, hR'⟩ | ⟨kv, L', hr, rfl, -, hR'⟩⟩
  · exact .inl ⟨hr, ht, hex, L, ⟨lo', hR'⟩, ⟨0, rfl⟩, fun X => rfl⟩
  · exact .inr ⟨hc, htk, .inl ⟨hr, ⟨lo', hR'⟩, fun X => rfl⟩⟩
  · exact .inr ⟨hc, htk, .inr ⟨kv, L', hr, ⟨_, hR'⟩, by simp, ⟨0, rfl⟩, fun X => rfl⟩⟩

/-- With the offset stage. -/
theorem top_offset_loop {M : Mach} {t : Bool} {R : M.St → Bytes → Table → Prop} (hS : Sim M t R)
    {n : Nat} {s : M.St} {lo : Bytes} {L : Table} (w : World) (hR : R s lo L)
    (ha : t = true → w.armed = true) (hn : L.length < n) :
    TopSpec t true L w (filterLoop .filterOffset filterOffset M n s w).1
      (filterLoop .filterOffset filterOffset M n s w).2.2
      (fun L' => ∃ lo', R (filterLoop .filterOffset filterOffset M n s w).2.1 lo' L') := by
  induction n generalizing s lo L w with
  | zero => omega
  | succ n ih =>
    have h := hS.next w hR ha
    rw [filterLoop]
    rcases hm : M.next s w with ⟨r, s', w'⟩
    rw [hm] at h
    obtain ⟨hf, h⟩ := h
    have ho := hf.offset
    simp only at hf h ho
    rcases h with ⟨rfl, ht, hex, lo', -, hR'⟩ | ⟨hc, htk, ⟨rfl, rfl, lo', -, hR'⟩ | ⟨kv, L', rfl, rfl, -, hR'⟩⟩
    · exact ⟨hf.time, .inl ⟨rfl, ht, hex, L, ⟨lo', hR'⟩, ⟨0, rfl⟩, fun X => by simp only [afterOffset, ho]⟩⟩
    · exact ⟨hf.time, .inr ⟨hc, htk, .inl ⟨rfl, ⟨lo', hR'⟩, fun X => by simp [afterOffset, ho]⟩⟩⟩
    · by_cases hpos : w'.offset > 0
      · simp only [filterOffset, hpos, if_true]
        have hl : L'.length < n := by simp at hn; omega
        let w2 : World := ({ w' with offset := w'.offset - 1 } : World).upd .filterOffset
          fun c => { c with filtered := c.filtered + 1 }
        have h2 : w2.offset = w'.offset - 1 := rfl
        have hf2 : TimeFrame w w2 := ⟨hf.clock, hf.deadline, hf.armed, hf.tick⟩
        have hc2 : Calm w w2 := hc
        refine TopSpec.chain (L2 := L') (w2 := w2) hf2 hc2 (by simp) ⟨1, rfl⟩ ?_
          (ih w2 hR' (fun h => hf.armed.trans (ha h)) hl)
        intro X
        simp only [afterOffset, if_true, h2, ho]
        obtain ⟨m, hm⟩ : ∃ m, w.offset = m + 1 := ⟨w.offset - 1, by omega⟩
        simp [hm]
      · simp only [filterOffset, hpos, if_false]
        refine ⟨hf.time, .inr ⟨hc, htk, .inr ⟨kv, L', rfl, ⟨_, hR'⟩, by simp, ⟨0, rfl⟩, fun X => ?_⟩⟩⟩
        have h0 : w.offset = 0 := by omega
        have h1 : w'.offset = 0 := by omega
        simp [afterOffset, h0, h1]

/-- The stage on top of a core machine: with or without offset stage. -/
def topM (b : Bool) (M : Mach) : Mach := if b then filterM .filterOffset filterOffset M else M

/-- A state of the top machine with the rows it still has to go through. -/
def TopAt (t b : Bool) (M : Mach) : (topM b M).St → Table → Prop :=
  match b with
  | true => fun (s : M.St) L => ∃ R lo, Sim M t R ∧ R s lo L
  | false => fun (s : M.St) L => ∃ R lo, Sim M t R ∧ R s lo L

theorem top_start {M : Mach} {t : Bool} {V : View} {L : Table} (h : Impl M t V L) (b : Bool) :
    TopAt t b M ((topM b M).start V) L := by
  obtain ⟨R, hS, h0⟩ := h
  cases b <;> exact ⟨R, _, hS, h0⟩

theorem top_size {M : Mach} {t b : Bool} {s : (topM b M).St} {L : Table} (h : TopAt t b M s L) :
    L.length ≤ (topM b M).size s := by
  cases b <;> (obtain ⟨R, lo, hS, h0⟩ := h; exact hS.size h0)

theorem top_next {M : Mach} {t b : Bool} {s : (topM b M).St} {L : Table} (h : TopAt t b M s L)
    (w : World) (ha : t = true → w.armed = true) :
    TopSpec t b L w ((topM b M).next s w).1 ((topM b M).next s w).2.2
      (TopAt t b M ((topM b M).next s w).2.1) := by
  cases b with
  | false =>
    obtain ⟨R, lo, hS, h0⟩ := h
    have h := top_plain hS w h0 ha
    obtain ⟨hf, h⟩ := h
    refine ⟨hf, ?_⟩
    rcases h with ⟨hr, ht, hex, L', ⟨lo', hR'⟩, hk, hX⟩ | ⟨hc, htk, ⟨hr, ⟨lo', hR'⟩, hX⟩ | ⟨kv, L', hr, ⟨lo', hR'⟩, hlt, hk, hX⟩⟩
    · exact .inl ⟨hr, ht, hex, L', ⟨R, lo', hS, hR'⟩, hk, hX⟩
    · exact .inr ⟨hc, htk, .inl ⟨hr, ⟨R, lo', hS, hR'⟩, hX⟩⟩
    · exact .inr ⟨hc, htk, .inr ⟨kv, L', hr, ⟨R, lo', hS, hR'⟩, hlt, hk, hX⟩⟩
  | true =>
    obtain ⟨R, lo, hS, h0⟩ := h
    have h := top_offset_loop hS w h0 ha (Nat.lt_succ_of_le (hS.size h0))
    obtain ⟨hf, h⟩ := h
    refine ⟨hf, ?_⟩
    rcases h with ⟨hr, ht, hex, L', ⟨lo', hR'⟩, hk, hX⟩ | ⟨hc, htk, ⟨hr, ⟨lo', hR'⟩, hX⟩ | ⟨kv, L', hr, ⟨lo', hR'⟩, hlt, hk, hX⟩⟩
    · exact .inl ⟨hr, ht, hex, L', ⟨R, lo', hS, hR'⟩, hk, hX⟩
    · exact .inr ⟨hc, htk, .inl ⟨hr, ⟨R, lo', hS, hR'⟩, hX⟩⟩
    · exact .inr ⟨hc, htk, .inr ⟨kv, L', hr, ⟨R, lo', hS, hR'⟩, hlt, hk, hX⟩⟩

/-! ## Entries -/

/-- The entry a row decodes to. -/
def decodeRow (kv : KV) : Option Entry :=
  match entryDecode kv.1 kv.2 with
  | .ok e => some e
  | _ => none

/-- Decoding the rows is safe. -/
def SafeRows (L : Table) : Prop := ∀ kv ∈ L, (entryDecode kv.1 kv.2).safe

/-- The entries still to be delivered from rows `X`. -/
def pending (b : Bool) (w : World) (X : Table) : List Entry := (afterOffset b w X).filterMap decodeRow

/-- What a call of a query iterator, or its inner loop, does when the rows to come are `L`. -/
def QSpec (t b : Bool) (L : Table) (w : World) (r : QRes) (w' : World) (after : Table → Prop) : Prop :=
  TimeFrame w w' ∧
  ((r = .timeout ∧ t = true ∧ Expired w w' ∧ ∃ L', after L' ∧ L' ⊆ L ∧
      ∀ X, pending b w (L ++ X) = pending b w' (L' ++ X)) ∨
   (Calm w w' ∧ (t = true → w.tick < w'.tick) ∧
     ((r = .failure ∧ after [] ∧ ∀ X, pending b w (L ++ X) = pending b w' X) ∨
      ∃ e L', r = .entry e ∧ after L' ∧ L' ⊆ L ∧
        ∀ X, pending b w (L ++ X) = e :: pending b w' (L' ++ X))))

theorem QSpec.chain {t b : Bool} {L L2 : Table} {w w2 w3 : World} {r : QRes} {after : Table → Prop}
    (hf : TimeFrame w w2) (hc : Calm w w2) (hl : L2 ⊆ L)
    (he : ∀ X, pending b w (L ++ X) = pending b w2 (L2 ++ X))
    (h : QSpec t b L2 w2 r w3 after) : QSpec t b L w r w3 after := by
  obtain ⟨hf3, h⟩ := h
  refine ⟨hf.trans hf3, ?_⟩
  rcases h with ⟨hr, ht, hex, L', ha, hk, hX⟩ | ⟨hc3, htk, ⟨hr, ha, hX⟩ | ⟨kv, L', hr, ha, hk, hX⟩⟩
  · exact .inl ⟨hr, ht, hf.expired hc hex, L', ha, fun _ h => hl (hk h), fun X => (he X).trans (hX X)⟩
  · exact .inr ⟨hf.calm hc hc3, fun h => Nat.lt_of_le_of_lt hf.tick (htk h), .inl ⟨hr, ha, fun X => (he X).trans (hX X)⟩⟩
  · exact .inr ⟨hf.calm hc hc3, fun h => Nat.lt_of_le_of_lt hf.tick (htk h), .inr ⟨kv, L', hr, ha, fun _ h => hl (hk h), fun X => (he X).trans (hX X)⟩⟩

theorem directLoop_spec {M : Mach} {t b : Bool} {n : Nat} {s : (topM b M).St} {L : Table}
    (h : TopAt t b M s L) (w : World) (ha : t = true → w.armed = true) (hd : SafeRows L)
    (hn : L.length < n) :
    QSpec t b L w (directLoop (topM b M) n s w).1 (directLoop (topM b M) n s w).2.2
      (TopAt t b M (directLoop (topM b M) n s w).2.1) := by
  induction n generalizing s L w with
  | zero => omega
  | succ n ih =>
    have ht := top_next h w ha
    rw [directLoop]
    rcases hm : (topM b M).next s w with ⟨r, s', w'⟩
    rw [hm] at ht
    obtain ⟨hf, ht⟩ := ht
    simp only at hf ht
    rcases ht with ⟨rfl, ht, hex, L', hA, ⟨k, rfl⟩, hX⟩ | ⟨hc, htk, ⟨rfl, hA, hX⟩ | ⟨kv, L', rfl, hA, hlt, ⟨k, hk⟩, hX⟩⟩
    · refine ⟨hf, .inl ⟨rfl, ht, hex, _, hA, fun _ h => List.mem_of_mem_drop h, fun X => ?_⟩⟩
      simp only [pending, hX]
    · exact ⟨hf, .inr ⟨hc, htk, .inl ⟨rfl, hA, fun X => by simp only [pending, hX]⟩⟩⟩
    · have hmem : kv ∈ L := List.mem_of_mem_drop (hk ▸ List.mem_cons_self)
      have hsub : L' ⊆ L := fun x hx => List.mem_of_mem_drop (hk ▸ List.mem_cons_of_mem _ hx)
      have hs := hd kv hmem
      simp only
      cases he : entryDecode kv.1 kv.2 with
      | ok e =>
        refine ⟨hf, .inr ⟨hc, htk, .inr ⟨e, L', rfl, hA, hsub, fun X => ?_⟩⟩⟩
        simp [pending, hX, decodeRow, he]
      | fail =>
        simp only
        refine QSpec.chain (L2 := L') hf hc hsub (fun X => ?_)
          (ih hA w' (fun h => hf.armed.trans (ha h)) (fun x hx => hd x (hsub hx)) (by omega))
        simp [pending, hX, decodeRow, he]
      | fault f => rw [he] at hs; exact hs.elim

/-! ## Indirect queries -/

/-- The rows an index row leads to. -/
def lookupRows (q : Query) (tb : UInt8) (rows : Bytes → Table) (j : KV) : Table :=
  match indirectKey q tb j with
  | .ok (some k) => rows k
  | _ => []

/-- Looking up the index rows `J` works, and gives the rows `rows k` for key `k`. -/
def Lookups (q : Query) (tb : UInt8) (M : Mach) (t : Bool) (rows : Bytes → Table) (J : Table) : Prop :=
  ∀ j ∈ J, ∃ o, indirectKey q tb j = .ok o ∧ ∀ k, o = some k → Impl M t (.pfx k) (rows k) ∧ SafeRows (rows k)

/-- State of an indirect query: the index rows `J` to come, and the rows `L` of the open lookup. -/
structure IndAt (q : Query) (tb : UInt8) (I M : Mach) (t b : Bool) (rows : Bytes → Table)
    (i : I.St) (m : Option (topM b M).St) (J L : Table) : Prop where
  idx : ∃ R lo, Sim I t R ∧ R i lo J
  look : Lookups q tb M t rows J
  cur : match m with
    | none => L = []
    | some s => TopAt t b M s L ∧ SafeRows L

/-- What a call of an indirect query does. -/
def ISpec (t b : Bool) (f : KV → Table) (J L : Table) (w : World) (r : QRes) (w' : World)
    (after : Table → Table → Prop) : Prop :=
  TimeFrame w w' ∧
  ((r = .timeout ∧ t = true ∧ Expired w w' ∧ ∃ J' L', after J' L' ∧
      pending b w (L ++ J.flatMap f) = pending b w' (L' ++ J'.flatMap f)) ∨
   (Calm w w' ∧ (t = true → w.tick < w'.tick) ∧
     ((r = .failure ∧ pending b w (L ++ J.flatMap f) = [] ∧ after [] []) ∨
      ∃ e J' L', r = .entry e ∧ after J' L' ∧
        pending b w (L ++ J.flatMap f) = e :: pending b w' (L' ++ J'.flatMap f))))

theorem ISpec.chain {t b : Bool} {f : KV → Table} {J L J2 L2 : Table} {w w2 w3 : World} {r : QRes}
    {after : Table → Table → Prop}
    (hf : TimeFrame w w2) (hc : Calm w w2)
    (he : pending b w (L ++ J.flatMap f) = pending b w2 (L2 ++ J2.flatMap f))
    (h : ISpec t b f J2 L2 w2 r w3 after) : ISpec t b f J L w r w3 after := by
  obtain ⟨hf3, h⟩ := h
  refine ⟨hf.trans hf3, ?_⟩
  rcases h with ⟨hr, ht, hex, J', L', ha, hX⟩ | ⟨hc3, htk, ⟨hr, hX, ha⟩ | ⟨e, J', L', hr, ha, hX⟩⟩
  · exact .inl ⟨hr, ht, hf.expired hc hex, J', L', ha, he.trans hX⟩
  · exact .inr ⟨hf.calm hc hc3, fun h => Nat.lt_of_le_of_lt hf.tick (htk h), .inl ⟨hr, he.trans hX, ha⟩⟩
  · exact .inr ⟨hf.calm hc hc3, fun h => Nat.lt_of_le_of_lt hf.tick (htk h), .inr ⟨e, J', L', hr, ha, he.trans hX⟩⟩

theorem indirectLoop_spec {q : Query} {tb : UInt8} {I M : Mach} {t b : Bool} {rows : Bytes → Table}
    {n : Nat} {i : I.St} {m : Option (topM b M).St} {J L : Table}
    (h : IndAt q tb I M t b rows i m J L) (w : World) (ha : t = true → w.armed = true)
    (hn : 2 * J.length + (if m.isSome then 1 else 0) < n) :
    ISpec t b (lookupRows q tb rows) J L w (indirectLoop q tb I (topM b M) n i m w).1
      (indirectLoop q tb I (topM b M) n i m w).2.2
      (fun J' L' => IndAt q tb I M t b rows (indirectLoop q tb I (topM b M) n i m w).2.1.1
        (indirectLoop q tb I (topM b M) n i m w).2.1.2 J' L') := by
  induction n generalizing i m J L w with
  | zero => omega
  | succ n ih =>
    obtain ⟨⟨R, lo, hS, hR⟩, hlook, hcur⟩ := h
    cases m with
    | some s =>
      obtain ⟨hT, hsafe⟩ := hcur
      have hq := directLoop_spec hT w ha hsafe (Nat.lt_succ_of_le (top_size hT))
      rw [indirectLoop]
      simp only [Nat.succ_eq_add_one] at hq ⊢
      rcases hm : directLoop (topM b M) ((topM b M).size s + 1) s w with ⟨r, s', w'⟩
      rw [hm] at hq
      obtain ⟨hf, hq⟩ := hq
      simp only at hf hq
      rcases hq with ⟨rfl, ht, hex, L', hA, hsub, hX⟩ | ⟨hc, htk, ⟨rfl, -, hX⟩ | ⟨e, L', rfl, hA, hsub, hX⟩⟩
      · exact ⟨hf, .inl ⟨rfl, ht, hex, J, L', ⟨⟨R, lo, hS, hR⟩, hlook, hA, fun x hx => hsafe x (hsub hx)⟩, hX _⟩⟩
      · refine ISpec.chain (J2 := J) (L2 := []) hf hc (by simpa using hX _) ?_
        refine ih ⟨⟨R, lo, hS, hR⟩, hlook, rfl⟩ w' (fun h => hf.armed.trans (ha h)) ?_
        simp at hn ⊢; omega
      · exact ⟨hf, .inr ⟨hc, htk, .inr ⟨e, J, L', rfl, ⟨⟨R, lo, hS, hR⟩, hlook, hA, fun x hx => hsafe x (hsub hx)⟩, hX _⟩⟩⟩
    | none =>
      obtain rfl := hcur
      have hq := hS.next w hR ha
      rw [indirectLoop]
      rcases hm : I.next i w with ⟨r, i', w'⟩
      rw [hm] at hq
      obtain ⟨hf, hq⟩ := hq
      simp only at hf hq
      have hoff : ∀ X, pending b w X = pending b w' X := fun X => by
        simp only [pending, afterOffset, hf.offset]
      rcases hq with ⟨rfl, ht, hex, lo', -, hR'⟩ | ⟨hc, htk, ⟨rfl, rfl, lo', -, hR'⟩ | ⟨j, J', rfl, rfl, -, hR'⟩⟩
      · exact ⟨hf.time, .inl ⟨rfl, ht, hex, J, [], ⟨⟨R, lo', hS, hR'⟩, hlook, rfl⟩, hoff _⟩⟩
      · refine ⟨hf.time, .inr ⟨hc, htk, .inl ⟨rfl, ?_, ⟨⟨R, lo', hS, hR'⟩, hlook, rfl⟩⟩⟩⟩
        simp [pending, afterOffset]
      · obtain ⟨o, ho, hk⟩ := hlook j List.mem_cons_self
        have hlook' : Lookups q tb M t rows J' := fun x hx => hlook x (List.mem_cons_of_mem _ hx)
        simp only [ho]
        cases o with
        | none =>
          refine ISpec.chain (J2 := J') (L2 := []) hf.time hc ?_
            (ih ⟨⟨R, _, hS, hR'⟩, hlook', rfl⟩ w' (fun h => hf.armed.trans (ha h)) (by simp at hn ⊢; omega))
          rw [hoff]; simp [lookupRows, ho]
        | some k =>
          obtain ⟨hI, hsafe⟩ := hk k rfl
          refine ISpec.chain (J2 := J') (L2 := rows k) hf.time hc ?_
            (ih (m := some ((topM b M).start (.pfx k))) (L := rows k)
              ⟨⟨R, _, hS, hR'⟩, hlook', top_start hI b, hsafe⟩ w' (fun h => hf.armed.trans (ha h)) (by simp at hn ⊢; omega))
          rw [hoff]; simp [lookupRows, ho]

/-! ## Runs -/

theorem armTimer_armed {l : Limits} {w : World} (h : l.active = true) : (armTimer l w).armed = true := by
  simp [armTimer, h]

theorem armTimer_offset (l : Limits) (w : World) : (armTimer l w).offset = w.offset := by
  unfold armTimer setDeadline
  split <;> (try split) <;> rfl

theorem pending_congr {b : Bool} {w w' : World} (h : w.offset = w'.offset) (X : Table) :
    pending b w X = pending b w' X := by
  simp only [pending, afterOffset, h]

/-- The timing part of a call: with active limits it ends with a timeout exactly when a clock reading
reached the deadline computed at its beginning. -/
def Timely (c : Call) : Prop :=
  let w := armTimer c.lim c.before
  c.after.deadline = w.deadline ∧ c.after.clock = c.before.clock ∧ w.tick ≤ c.after.tick ∧
  (c.res = .timeout ∧ Expired w c.after ∨ c.res ≠ .timeout ∧ Calm w c.after)

theorem direct_run {M I : Mach} {t b : Bool} {V : View} (q : Query) (ls : List Limits)
    (hl : t = true → ∀ l ∈ ls, l.active = true) :
    ∀ {s : (topM b M).St} {L : Table} (w : World), TopAt t b M s L → SafeRows L →
      Returns t (pending b w L) (queryRun q ⟨topM b M, I, V, none⟩ ls (.direct s) w) ∧
      ∀ c ∈ queryRun q ⟨topM b M, I, V, none⟩ ls (.direct s) w, Timely c := by
  induction ls with
  | nil => intros; exact ⟨.nil, by simp [queryRun]⟩
  | cons l ls ih =>
    intro s L w hT hs
    have ih := @ih (fun h l hl' => hl h l (List.mem_cons_of_mem _ hl'))
    have ha : t = true → (armTimer l w).armed = true := fun h =>
      armTimer_armed (hl h l List.mem_cons_self)
    have hq := directLoop_spec hT (armTimer l w) ha hs (Nat.lt_succ_of_le (top_size hT))
    simp only [Nat.succ_eq_add_one] at hq
    simp only [queryRun, queryNext]
    rcases hm : directLoop (topM b M) ((topM b M).size s + 1) s (armTimer l w) with ⟨r, s', w'⟩
    rw [hm] at hq
    obtain ⟨hf, hq⟩ := hq
    simp only at hf hq
    have hp : pending b w L = pending b (armTimer l w) (L ++ []) := by
      rw [List.append_nil]; exact pending_congr (armTimer_offset l w).symm L
    have hck : (armTimer l w).clock = w.clock := by
      unfold armTimer setDeadline
      split <;> (try split) <;> rfl
    have hd : ∀ X, pending b w' X = pending b (disarm w') X := fun X => pending_congr rfl X
    have tim : ∀ r, (r = QRes.timeout ∧ Expired (armTimer l w) w' ∨ r ≠ .timeout ∧ Calm (armTimer l w) w') →
        Timely ⟨l, w, disarm w', r⟩ := fun r h =>
      ⟨hf.deadline, hf.clock.trans hck, hf.tick, h⟩
    rcases hq with ⟨rfl, ht, hex, L', hA, hsub, hX⟩ | ⟨hc, htk, ⟨rfl, hA, hX⟩ | ⟨e, L', rfl, hA, hsub, hX⟩⟩
    · have := ih (disarm w') hA (fun x hx => hs x (hsub hx))
      refine ⟨?_, List.forall_mem_cons.2 ⟨tim _ (.inl ⟨rfl, hex⟩), this.2⟩⟩
      rw [hp, hX, List.append_nil, hd]
      exact .timeout ht rfl this.1
    · have := ih (disarm w') hA (fun x hx => absurd hx (by simp))
      refine ⟨?_, List.forall_mem_cons.2 ⟨tim _ (.inr ⟨by simp, hc⟩), this.2⟩⟩
      rw [hp, hX, hd]
      have e0 : pending b (disarm w') [] = [] := by simp [pending, afterOffset]
      rw [e0] at this ⊢
      exact .failure rfl this.1
    · have := ih (disarm w') hA (fun x hx => hs x (hsub hx))
      refine ⟨?_, List.forall_mem_cons.2 ⟨tim _ (.inr ⟨by simp, hc⟩), this.2⟩⟩
      rw [hp, hX, List.append_nil, hd]
      exact .entry rfl this.1

theorem indirect_run {M I : Mach} {t b : Bool} {V : View} (q : Query) {tb : UInt8}
    {rows : Bytes → Table} (ls : List Limits)
    (hl : t = true → ∀ l ∈ ls, l.active = true) :
    ∀ {i : I.St} {m : Option (topM b M).St} {J L : Table} (w : World), IndAt q tb I M t b rows i m J L →
      Returns t (pending b w (L ++ J.flatMap (lookupRows q tb rows)))
        (queryRun q ⟨topM b M, I, V, some tb⟩ ls (.indirect tb i m) w) ∧
      ∀ c ∈ queryRun q ⟨topM b M, I, V, some tb⟩ ls (.indirect tb i m) w, Timely c := by
  induction ls with
  | nil => intros; exact ⟨.nil, by simp [queryRun]⟩
  | cons l ls ih =>
    intro i m J L w hT
    have ih := @ih (fun h l hl' => hl h l (List.mem_cons_of_mem _ hl'))
    have ha : t = true → (armTimer l w).armed = true := fun h =>
      armTimer_armed (hl h l List.mem_cons_self)
    have hJ : J.length ≤ I.size i := by
      obtain ⟨R, lo, hS, hR⟩ := hT.idx
      exact hS.size hR
    have hT' : IndAt { q with lim := l } tb I M t b rows i m J L := ⟨hT.idx, hT.look, hT.cur⟩
    have hq := indirectLoop_spec hT' (armTimer l w) ha (n := 2 * I.size i + 3)
      (by split <;> omega)
    simp only [queryRun, queryNext]
    rcases hm : indirectLoop { q with lim := l } tb I (topM b M) (2 * I.size i + 3) i m (armTimer l w)
      with ⟨r, ⟨i', m'⟩, w'⟩
    rw [hm] at hq
    obtain ⟨hf, hq⟩ := hq
    simp only at hf hq
    have hp : ∀ X, pending b w X = pending b (armTimer l w) X := fun X =>
      pending_congr (armTimer_offset l w).symm X
    have hck : (armTimer l w).clock = w.clock := by
      unfold armTimer setDeadline
      split <;> (try split) <;> rfl
    have hd : ∀ X, pending b w' X = pending b (disarm w') X := fun X => pending_congr rfl X
    have tim : ∀ r, (r = QRes.timeout ∧ Expired (armTimer l w) w' ∨ r ≠ .timeout ∧ Calm (armTimer l w) w') →
        Timely ⟨l, w, disarm w', r⟩ := fun r h =>
      ⟨hf.deadline, hf.clock.trans hck, hf.tick, h⟩
    have hlr : lookupRows { q with lim := l } tb rows = lookupRows q tb rows := rfl
    rw [hlr] at hq
    rcases hq with ⟨rfl, ht, hex, J', L', hA, hX⟩ | ⟨hc, htk, ⟨rfl, hX, hA⟩ | ⟨e, J', L', rfl, hA, hX⟩⟩
    · have := ih (disarm w') (J := J') (L := L') ⟨hA.idx, hA.look, hA.cur⟩
      refine ⟨?_, List.forall_mem_cons.2 ⟨tim _ (.inl ⟨rfl, hex⟩), this.2⟩⟩
      rw [hp, hX, hd]
      exact .timeout ht rfl this.1
    · have := ih (disarm w') (J := []) (L := []) ⟨hA.idx, hA.look, hA.cur⟩
      refine ⟨?_, List.forall_mem_cons.2 ⟨tim _ (.inr ⟨by simp, hc⟩), this.2⟩⟩
      rw [hp, hX]
      have e0 : pending b (disarm w') ([] ++ [].flatMap (lookupRows q tb rows)) = [] := by
        simp [pending, afterOffset]
      rw [e0] at this
      exact .failure rfl this.1
    · have := ih (disarm w') (J := J') (L := L') ⟨hA.idx, hA.look, hA.cur⟩
      refine ⟨?_, List.forall_mem_cons.2 ⟨tim _ (.inr ⟨by simp, hc⟩), this.2⟩⟩
      rw [hp, hX, hd]
      exact .entry rfl this.1

theorem withOffset_eq (q : Query) (M : Mach) : withOffset q M = topM (decide (q.offset > 0)) M := by
  simp [withOffset, topM]

theorem pending_start (q : Query) {w : World} (h : w.offset = q.offset) (X : Table) :
    pending (decide (q.offset > 0)) w X = (X.drop q.offset).filterMap decodeRow := by
  simp only [pending, afterOffset, h]
  by_cases h0 : q.offset > 0
  · simp [h0]
  · have : q.offset = 0 := by omega
    simp [this]

/-- Everything below the offset stage. -/
def coreM (q : Query) (S : Sources) (p : Plan) : Mach :=
  withTimes q S.rm S.fill (withFilters p.onSource (withTimeout q S.source))

/-- The index source of an indirect query. -/
def indexM (q : Query) (S : Sources) (p : Plan) : Mach := withFilters p.onIndex (withTimeout q S.index)

theorem assemble_eq (q : Query) (S : Sources) (p : Plan) :
    assemble q S p = ⟨topM (decide (q.offset > 0)) (coreM q S p), indexM q S p, p.view, p.indirect⟩ := by
  simp only [assemble, withOffset_eq]; rfl

/-- The run of a direct query over a core machine that delivers the rows `L`. -/
theorem query_direct {q : Query} {S : Sources} {p : Plan} (hp : p.indirect = none) {t : Bool} {L : Table}
    (hI : Impl (coreM q S p) t p.view L) (hs : SafeRows L) (ls : List Limits)
    (hl : t = true → ∀ l ∈ ls, l.active = true) {w : World} (hw : w.offset = q.offset) :
    Returns t ((L.drop q.offset).filterMap decodeRow)
      (queryRun q (assemble q S p) ls (assemble q S p).start w) ∧
    ∀ c ∈ queryRun q (assemble q S p) ls (assemble q S p).start w, Timely c := by
  rw [assemble_eq, hp]
  rw [← pending_start q hw]
  exact direct_run q ls hl w (top_start hI _) hs

/-- The run of an indirect query. -/
theorem query_indirect {q : Query} {S : Sources} {p : Plan} {tb : UInt8} (hp : p.indirect = some tb)
    {t : Bool} {J : Table} {rows : Bytes → Table} (hI : Impl (indexM q S p) t p.view J)
    (hL : Lookups q tb (coreM q S p) t rows J) (ls : List Limits)
    (hl : t = true → ∀ l ∈ ls, l.active = true) {w : World} (hw : w.offset = q.offset) :
    Returns t (((J.flatMap (lookupRows q tb rows)).drop q.offset).filterMap decodeRow)
      (queryRun q (assemble q S p) ls (assemble q S p).start w) ∧
    ∀ c ∈ queryRun q (assemble q S p) ls (assemble q S p).start w, Timely c := by
  rw [assemble_eq, hp]
  rw [← pending_start q hw]
  obtain ⟨R, hS, h0⟩ := hI
  have := indirect_run (V := p.view) (m := none) (L := []) (b := decide (q.offset > 0)) q ls hl w
    ⟨⟨R, _, hS, h0⟩, hL, rfl⟩
  rw [List.nil_append] at this
  exact this

end Verif
