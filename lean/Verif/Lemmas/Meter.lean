import Verif.Lemmas.Clock

/-!
# Every step of a table is preceded by a clock reading
-/

namespace Verif
open Spec

/-- No clock reading and no counted step. -/
def Quiet (w w' : World) : Prop := w'.tick = w.tick ∧ steps w' = steps w

theorem Quiet.refl (w : World) : Quiet w w := ⟨rfl, rfl⟩

theorem Quiet.trans {a b c : World} (h1 : Quiet a b) (h2 : Quiet b c) : Quiet a c :=
  ⟨h2.1.trans h1.1, h2.2.trans h1.2⟩

theorem quiet_upd (w : World) (g : Stage) (f : Stats → Stats)
    (hf : ∀ c, (f c).merged = c.merged ∨ g ≠ .fileset) : Quiet w (w.upd g f) := by
  refine ⟨rfl, ?_⟩
  simp only [steps, World.upd]
  split
  · rename_i h
    rcases hf (w.stats .fileset) with h2 | h2
    · exact h2
    · exact absurd h.symm h2
  · rfl

/-- The counted steps are paid for by clock readings, a timeout costs one. -/
def Bill (b : Bool) (w w' : World) : Prop :=
  steps w' + w.tick + b.toNat ≤ steps w + w'.tick

/-- Whether a result is a timeout. -/
def Res.expired : Res → Bool
  | .timeout => true
  | _ => false

/-- Whether a result is a timeout. -/
def QRes.expired : QRes → Bool
  | .timeout => true
  | _ => false

theorem Quiet.bill {w w' : World} (h : Quiet w w') : Bill false w w' := by
  obtain ⟨h1, h2⟩ := h
  simp only [Bill, h1, h2]; simp

theorem Bill.trans {b : Bool} {w w1 w2 : World} (h1 : Bill false w w1) (h2 : Bill b w1 w2) : Bill b w w2 := by
  simp only [Bill, Bool.toNat_false] at *
  omega

theorem Bill.weaken {b : Bool} {w w1 : World} (h1 : Bill b w w1) : Bill false w w1 := by
  simp only [Bill, Bool.toNat_false] at *
  omega

/-- Every step of the machine is paid for. -/
structure Metered (T : Mach) : Prop where
  next : ∀ s w, Bill (T.next s w).1.expired w (T.next s w).2.2
  seek : ∀ s k w, Quiet w (T.seek s k w).2.2

theorem cur_next_world (T : Table) (sf : View → Bytes → Bool) (s : View × Table) (w : World) :
    ((curM T sf).next s w).2.2 = w ∧ ((curM T sf).next s w).1 ≠ .timeout := by
  obtain ⟨V, r⟩ := s
  cases r with
  | nil => exact ⟨rfl, by simp [curM]⟩
  | cons kv r =>
    simp only [curM]
    split
    · exact ⟨rfl, by simp⟩
    · exact ⟨rfl, by simp⟩

theorem metered_timeout (T : Table) (sf : View → Bytes → Bool) : Metered (timeoutM (counted (curM T sf))) where
  seek s k w := Quiet.refl w
  next s w := by
    by_cases hg : timespecGe (w.clock w.tick) w.deadline = true
    · by_cases ha : w.armed = true
      · have : (timeoutM (counted (curM T sf))).next s w = (.timeout, s, { w with tick := w.tick + 1 }) :=
          (if_pos hg).trans (if_pos ha)
        rw [this]
        show steps w + w.tick + 1 ≤ steps w + (w.tick + 1)
        omega
      · have : (timeoutM (counted (curM T sf))).next s w = (.fault .staleJump, s, { w with tick := w.tick + 1 }) :=
          (if_pos hg).trans (if_neg ha)
        rw [this]
        show steps w + w.tick + 0 ≤ steps w + (w.tick + 1)
        omega
    · have : (timeoutM (counted (curM T sf))).next s w =
          (curM T sf).next s (({ w with tick := w.tick + 1 } : World).upd .fileset
            fun c => { c with merged := c.merged + 1 }) := if_neg hg
      rw [this]
      obtain ⟨h1, h2⟩ := cur_next_world T sf s (({ w with tick := w.tick + 1 } : World).upd .fileset
            fun c => { c with merged := c.merged + 1 })
      have h2' : ∀ r : Res, r ≠ .timeout → r.expired = false := fun r hr => by
        cases r <;> first | rfl | exact absurd rfl hr
      rw [h1, h2' _ h2]
      show steps w + 1 + w.tick + 0 ≤ steps w + (w.tick + 1)
      omega

theorem metered_filterLoop {T : Mach} (hT : Metered T) (g : Stage) (f : FilterFn)
    (hf : ∀ w kv, Quiet w (f w kv).2) (n : Nat) : ∀ s w,
    Bill (filterLoop g f T n s w).1.expired w (filterLoop g f T n s w).2.2 := by
  have qf : ∀ w : World, Quiet w (w.upd g fun c => { c with filtered := c.filtered + 1 }) :=
    fun w => quiet_upd w g _ fun c => .inl rfl
  have qs : ∀ w : World, Quiet w (w.upd g fun c => { c with seek := c.seek + 1 }) :=
    fun w => quiet_upd w g _ fun c => .inl rfl
  induction n with
  | zero => intro s w; exact (Quiet.refl w).bill
  | succ n ih =>
    intro s w
    have h := hT.next s w
    simp only [filterLoop]
    rcases hm : T.next s w with ⟨r, s', w'⟩
    rw [hm] at h
    simp only at h
    cases r with
    | item kv =>
      have h2 := hf w' kv
      simp only
      rcases hv : f w' kv with ⟨d, w2⟩
      rw [hv] at h2
      simp only at h2
      have h3 : Bill false w w2 := h.weaken.trans h2.bill
      cases d with
      | pass => exact h3
      | drop => exact (h3.trans (qf w2).bill).trans (ih _ _)
      | seekTo k =>
        simp only
        have h4 := hT.seek s' k (w2.upd g fun c => { c with seek := c.seek + 1 })
        rcases hs : T.seek s' k (w2.upd g fun c => { c with seek := c.seek + 1 }) with ⟨ok, s3, w3⟩
        rw [hs] at h4
        simp only at h4
        have h5 : Bill false w w3 := h3.trans ((qs w2).trans h4).bill
        cases ok with
        | true => exact (h5.trans (qf w3).bill).trans (ih _ _)
        | false => exact h5
      | stop => exact h3
      | fault e => exact h3
    | done => exact h
    | timeout => exact h
    | fault e => exact h

theorem Metered.filter {T : Mach} (hT : Metered T) (g : Stage) {f : FilterFn}
    (hf : ∀ w kv, Quiet w (f w kv).2) : Metered (filterM g f T) where
  next s w := metered_filterLoop hT g f hf _ s w
  seek := hT.seek

theorem Metered.filters {T : Mach} (hT : Metered T) (fs : List Filt) : Metered (withFilters fs T) := by
  induction fs generalizing T with
  | nil => exact hT
  | cons f fs ih => exact ih (hT.filter f.1 fun w kv => Quiet.refl w)

theorem rmFetch_quiet (R : Src) (s : View × Table) (k : Bytes) (w : World) : Quiet w (rmFetch R s k w).2.2 := by
  unfold rmFetch
  have h1 : (R.mach.seek s k w).2.2 = w := rfl
  rcases hs : R.mach.seek s k w with ⟨ok, s2, w2⟩
  rw [hs] at h1
  simp only at h1
  subst h1
  cases ok with
  | false => exact Quiet.refl _
  | true =>
    simp only
    have h2 := (cur_next_world R.rows R.seekFails s2
      (w2.upd .removeStrict fun c => { c with seek := c.seek + 1 })).1
    have h3 : Quiet w2 (w2.upd .removeStrict fun c => { c with seek := c.seek + 1 }) :=
      quiet_upd w2 _ _ fun c => .inl rfl
    rcases hn : R.mach.next s2 (w2.upd .removeStrict fun c => { c with seek := c.seek + 1 }) with ⟨r, s3, w3⟩
    have h4 : w3 = w2.upd .removeStrict fun c => { c with seek := c.seek + 1 } := by
      rw [← h2]
      exact (congrArg (fun x => x.2.2) hn).symm
    rw [← h4] at h3
    cases r <;> exact h3

theorem rmAdvance_quiet (k : Bytes) (n : Nat) : ∀ (e : RmEntry) (s : View × Table) (w : World),
    Quiet w (rmAdvance k n e s w).2.2 := by
  induction n with
  | zero => intro e s w; exact Quiet.refl w
  | succ n ih =>
    intro e s w
    unfold rmAdvance
    split
    · exact Quiet.refl w
    · split
      · exact Quiet.refl w
      · exact Quiet.refl w
      · have := rmFetch_quiet e.src s k w
        rcases hf : rmFetch e.src s k w with ⟨o, s2, w2⟩
        rw [hf] at this
        cases o with
        | none => exact this
        | some k' => exact this.trans (ih _ _ _)

theorem rmEntryMatch_quiet (V : View) (k : Bytes) (e : RmEntry) (w : World) :
    Quiet w (rmEntryMatch V k e w).2.2 := by
  obtain ⟨src, it, key, fin⟩ := e
  unfold rmEntryMatch
  cases it with
  | some s => exact rmAdvance_quiet k _ _ s w
  | none =>
    simp only
    have := rmFetch_quiet src (src.mach.start V) k w
    rcases hf : rmFetch src (src.mach.start V) k w with ⟨o, s2, w2⟩
    rw [hf] at this
    cases o with
    | none => exact this
    | some k' => exact this.trans (rmAdvance_quiet _ _ _ _ _)

theorem matchKey_quiet (V : View) (k : Bytes) : ∀ (es seen : List RmEntry) (w : World),
    Quiet w (matchKey V k seen es w).2.2 := by
  intro es
  induction es with
  | nil => intro seen w; exact Quiet.refl w
  | cons e es ih =>
    intro seen w
    unfold matchKey
    have := rmEntryMatch_quiet V k e w
    rcases hf : rmEntryMatch V k e w with ⟨o, e2, w2⟩
    rw [hf] at this
    simp only at this
    cases o with
    | none => exact this
    | some b =>
      cases b with
      | true => exact this.trans (quiet_upd _ _ _ fun c => .inl rfl)
      | false => exact this.trans (ih _ _)

theorem rmSeekAll_quiet (k : Bytes) : ∀ (es : List RmEntry) (w : World), Quiet w (rmSeekAll k es w).2 := by
  intro es
  induction es with
  | nil => intro w; exact Quiet.refl w
  | cons e es ih =>
    intro w
    have h1 : Quiet w (rmEntrySeek k e w).2 := by
      obtain ⟨src, it, key, fin⟩ := e
      unfold rmEntrySeek
      cases it with
      | none => exact Quiet.refl w
      | some s =>
        simp only
        split
        · have := rmFetch_quiet src s k w
          rcases hf : rmFetch src s k w with ⟨o, s2, w2⟩
          rw [hf] at this
          cases o <;> exact this
        · exact Quiet.refl w
    exact h1.trans (ih _)

theorem metered_removeLoop {T : Mach} (hT : Metered T) (n : Nat) : ∀ s w,
    Bill (removeLoop T n s w).1.expired w (removeLoop T n s w).2.2 := by
  induction n with
  | zero => intro s w; exact (Quiet.refl w).bill
  | succ n ih =>
    intro s w
    have h := hT.next s.up w
    simp only [removeLoop]
    rcases hm : T.next s.up w with ⟨r, s', w'⟩
    rw [hm] at h
    simp only at h
    cases r with
    | item kv =>
      simp only
      have h2 := matchKey_quiet s.view kv.1 s.entries [] w'
      rcases hv : matchKey s.view kv.1 [] s.entries w' with ⟨o, es, w2⟩
      rw [hv] at h2
      simp only at h2
      have h3 : Bill false w w2 := h.weaken.trans h2.bill
      cases o with
      | none => exact h3
      | some b =>
        cases b with
        | true => exact h3.trans (ih _ _)
        | false => exact h3
    | done => exact h
    | timeout => exact h
    | fault e => exact h

theorem Metered.remove {T : Mach} (hT : Metered T) (rm : Option (List Src)) : Metered (withRemove rm T) := by
  cases rm with
  | none => exact hT
  | some l =>
    refine ⟨fun s w => metered_removeLoop hT _ s w, fun s k w => ?_⟩
    have h1 := rmSeekAll_quiet k s.entries w
    simp only [withRemove, removeM]
    have h2 := hT.seek s.up k (rmSeekAll k s.entries w).2
    exact h1.trans h2

theorem ljoinLoop_quiet (mg : MergeFn) (L : Mach) (F : Src) (kv : KV) (n : Nat) :
    ∀ (s : LjoinSt L F.mach) w, Quiet w (ljoinLoop mg L F.mach kv n s w).2.2 ∧
      (ljoinLoop mg L F.mach kv n s w).1 ≠ .timeout := by
  induction n with
  | zero => intro s w; exact ⟨Quiet.refl w, by simp [ljoinLoop]⟩
  | succ n ih =>
    intro s w
    have hf : (ljoinFetch L F.mach s w).2.2 = w ∧ (ljoinFetch L F.mach s w).1 ≠ .timeout := by
      obtain ⟨l, r, fin, rkv⟩ := s
      unfold ljoinFetch
      cases rkv with
      | some r => exact ⟨rfl, by simp⟩
      | none =>
        simp only
        have := cur_next_world F.rows F.seekFails r w
        generalize (curM F.rows F.seekFails).next r w = x at this ⊢
        obtain ⟨a, b, c⟩ := x
        cases a with
        | item kv => exact ⟨this.1, by simp⟩
        | done => exact ⟨this.1, by simp⟩
        | timeout => exact absurd rfl this.2
        | fault f => exact ⟨this.1, by simp⟩
    unfold ljoinLoop
    split
    · exact ⟨Quiet.refl w, by simp⟩
    · rcases hx : ljoinFetch L F.mach s w with ⟨r, s2, w2⟩
      rw [hx] at hf
      obtain ⟨rfl, hne⟩ := hf
      cases r with
      | done => exact ⟨Quiet.refl _, by simp⟩
      | timeout => exact absurd rfl hne
      | fault f => exact ⟨Quiet.refl _, by simp⟩
      | item r =>
        simp only
        unfold ljoinCompare
        split
        · have hs : (F.mach.seek s2.right kv.1 w2).2.2 = w2 := rfl
          rcases hk : F.mach.seek s2.right kv.1 w2 with ⟨ok, sr, w3⟩
          rw [hk] at hs
          simp only at hs
          subst hs
          cases ok with
          | true =>
            simp only
            obtain ⟨h1, h2⟩ := ih { s2 with right := sr, rkv := none }
              (w3.upd .ljoin fun c => { c with seek := c.seek + 1 })
            have h3 : Quiet w3 (w3.upd .ljoin fun c => { c with seek := c.seek + 1 }) :=
              quiet_upd _ _ _ fun c => .inl rfl
            exact ⟨h3.trans h1, h2⟩
          | false => exact ⟨Quiet.refl _, by simp⟩
        · exact ⟨Quiet.refl _, by simp⟩
        · split
          · exact ⟨quiet_upd _ _ _ fun c => .inr (by simp), by simp⟩
          · exact ⟨Quiet.refl _, by simp⟩
          · exact ⟨Quiet.refl _, by simp⟩

theorem Metered.fill {T : Mach} (hT : Metered T) (fl : Option Src) : Metered (withFill fl T) := by
  cases fl with
  | none => exact hT
  | some F =>
    constructor
    · intro s w
      have h := hT.next s.left w
      simp only [withFill, ljoinM]
      rcases hm : T.next s.left w with ⟨r, sl, w'⟩
      rw [hm] at h
      simp only at h
      cases r with
      | item kv =>
        simp only
        obtain ⟨h1, h2⟩ := ljoinLoop_quiet mergeFunc T F kv (F.mach.size s.right + 3) { s with left := sl } w'
        have h2' : ∀ r : Res, r ≠ .timeout → r.expired = false := fun r hr => by
          cases r <;> first | rfl | exact absurd rfl hr
        rw [h2' _ h2]
        exact h.weaken.trans h1.bill
      | done => exact h
      | timeout => exact h
      | fault e => exact h
    · intro s k w
      have h := hT.seek s.left k w
      simp only [withFill, ljoinM]
      rcases hm : T.seek s.left k w with ⟨ok, sl, w'⟩
      rw [hm] at h
      simp only at h
      cases ok with
      | false => exact h
      | true => exact h

theorem Metered.times {T : Mach} (hT : Metered T) (q : Query) (rm : Option (List Src)) (fl : Option Src) :
    Metered (withTimes q rm fl T) := by
  unfold withTimes
  split
  · exact (((hT.filter _ fun w kv => Quiet.refl w).remove rm).fill fl).filter _ fun w kv => Quiet.refl w
  · exact hT.fill fl

theorem Metered.offset {T : Mach} (hT : Metered T) (q : Query) : Metered (withOffset q T) := by
  unfold withOffset
  split
  · refine hT.filter _ fun w kv => ?_
    unfold filterOffset
    split <;> exact ⟨rfl, rfl⟩
  · exact hT

theorem metered_direct {T : Mach} (hT : Metered T) (n : Nat) : ∀ s w,
    Bill (directLoop T n s w).1.expired w (directLoop T n s w).2.2 := by
  induction n with
  | zero => intro s w; exact (Quiet.refl w).bill
  | succ n ih =>
    intro s w
    have h := hT.next s w
    simp only [directLoop]
    rcases hm : T.next s w with ⟨r, s', w'⟩
    rw [hm] at h
    simp only at h
    cases r with
    | item kv =>
      simp only
      cases entryDecode kv.1 kv.2 with
      | ok e => exact h
      | fail => exact h.weaken.trans (ih _ _)
      | fault f => exact h
    | done => exact h
    | timeout => exact h
    | fault e => exact h

theorem metered_indirect {Y T : Mach} (hY : Metered Y) (hT : Metered T) (q : Query) (tb : UInt8) (n : Nat) :
    ∀ i m w, Bill (indirectLoop q tb Y T n i m w).1.expired w (indirectLoop q tb Y T n i m w).2.2 := by
  induction n with
  | zero => intro i m w; exact (Quiet.refl w).bill
  | succ n ih =>
    intro i m w
    cases m with
    | some s =>
      simp only [indirectLoop]
      have h := metered_direct hT (T.size s + 1) s w
      rcases hm : directLoop T (T.size s + 1) s w with ⟨r, s', w'⟩
      rw [hm] at h
      simp only at h
      cases r with
      | failure => exact h.weaken.trans (ih _ _ _)
      | entry e => exact h
      | timeout => exact h
      | fault f => exact h
    | none =>
      simp only [indirectLoop]
      have h := hY.next i w
      rcases hm : Y.next i w with ⟨r, s', w'⟩
      rw [hm] at h
      simp only at h
      cases r with
      | item kv =>
        simp only
        cases indirectKey q tb kv with
        | fail => exact h
        | fault f => exact h
        | ok o =>
          cases o with
          | none => exact h.weaken.trans (ih _ _ _)
          | some k => exact h.weaken.trans (ih _ _ _)
      | done => exact h
      | timeout => exact h
      | fault e => exact h

theorem metered_call {B : Built} (hs : Metered B.source) (hi : Metered B.index) (q : Query) (s : QSt B)
    (w : World) :
    Bill (queryNext q B s w).1.expired (armTimer q.lim w) (queryNext q B s w).2.2 := by
  cases s with
  | direct s => exact metered_direct hs (B.source.size s + 1) s (armTimer q.lim w)
  | indirect tb i m => exact metered_indirect hi hs q tb (2 * B.index.size i + 3) i m (armTimer q.lim w)

theorem armTimer_steps {l : Limits} (hl : l.active = true) (w : World) :
    steps (armTimer l w) = steps w ∧
      (armTimer l w).tick = w.tick + if l.doTimeout then 1 else 0 := by
  unfold armTimer setDeadline
  rw [if_pos hl]
  split <;> exact ⟨rfl, rfl⟩

theorem metered_run {B : Built} (hs : Metered B.source) (hi : Metered B.index) (q : Query) (ls : List Limits)
    (hl : ∀ l ∈ ls, l.active = true) : ∀ (s : QSt B) (w : World), ∀ c ∈ queryRun q B ls s w,
      steps c.after - steps c.before ≤ c.goodReadings := by
  induction ls with
  | nil => intro s w c hc; simp [queryRun] at hc
  | cons l ls ih =>
    intro s w c hc
    simp only [queryRun, List.mem_cons] at hc
    rcases hc with rfl | hc
    · have h := metered_call hs hi { q with lim := l } s w
      obtain ⟨h1, h2⟩ := armTimer_steps (hl l List.mem_cons_self) w
      simp only [Bill, h1, h2] at h
      simp only [Call.goodReadings, Call.firstReading]
      have h3 : ∀ r : QRes, (if r = .timeout then 1 else 0) = r.expired.toNat := fun r => by
        cases r <;> simp [QRes.expired]
      rw [h3]
      omega
    · exact ih (fun l h => hl l (List.mem_cons_of_mem _ h)) _ _ c hc

end Verif
