import Verif.Spec.Stats
import Verif.Lemmas.Order

/-! # Accounting for rows: one call, then any history -/

namespace Verif
open Spec

theorem upd_same (w : World) (g : Stage) (f : Stats → Stats) : (w.upd g f).stats g = f (w.stats g) := by
  simp [World.upd]

theorem upd_other (w : World) {g h : Stage} (hne : h ≠ g) (f : Stats → Stats) : (w.upd g f).stats h = w.stats h := by
  simp [World.upd, hne]

theorem upd_offset (w : World) (g : Stage) (f : Stats → Stats) : (w.upd g f).offset = w.offset := rfl

theorem setDeadline_keeps (l : Limits) (w : World) : (setDeadline l w).stats = w.stats ∧ (setDeadline l w).offset = w.offset := by
  unfold setDeadline
  split <;> exact ⟨rfl, rfl⟩

theorem armTimer_keeps (l : Limits) (w : World) : (armTimer l w).stats = w.stats ∧ (armTimer l w).offset = w.offset := by
  unfold armTimer
  split
  · exact setDeadline_keeps l w
  · exact ⟨rfl, rfl⟩

theorem rows_le_one (r : Res) : Res.rows r ≤ 1 := by cases r <;> simp [Res.rows]

theorem Spec.Untouched.refl (g : Stage) (w : World) : Untouched g w w := ⟨rfl, fun _ => rfl⟩

theorem Spec.Untouched.trans {g : Stage} {a b c : World} (h1 : Untouched g a b) (h2 : Untouched g b c) : Untouched g a c :=
  ⟨h2.1.trans h1.1, fun e => (h2.2 e).trans (h1.2 e)⟩

theorem untouched_upd {g g' : Stage} (hne : g ≠ g') (f : Stats → Stats) (w : World) : Untouched g w (w.upd g' f) :=
  ⟨upd_other w hne f, fun _ => rfl⟩

/-- A source whose iterators carry a count of the rows handed out, and which leaves stage `g` alone. -/
structure RowMeter (g : Stage) (U : Mach) (c : U.St → Nat) : Prop where
  start : ∀ V, c (U.start V) = 0
  next : ∀ s w, c (U.next s w).2.1 = c s + Res.rows (U.next s w).1 ∧ Untouched g w (U.next s w).2.2
  seek : ∀ s k w, c (U.seek s k w).2.1 = c s ∧ Untouched g w (U.seek s k w).2.2

theorem rowMeter_tap {g : Stage} {M : Mach} (h : Leaves g M) : RowMeter g (tapM M) fun s => s.2.1 where
  start _ := rfl
  next s w := ⟨rfl, h.next s.1 w⟩
  seek s k w := ⟨rfl, h.seek s.1 k w⟩

/-- One call on a stage: rows taken are rows handed out, rows counted and at most one row that ended
the call (none if `clean`). -/
structure Accounts (M : Mach) (tap : M.St → Nat) (cnt : World → Nat) (clean : Prop) : Prop where
  start : ∀ V, tap (M.start V) = 0
  next : ∀ s w, ∃ lost, lost ≤ 1 - Res.rows (M.next s w).1 ∧ (clean → lost = 0) ∧
    tap (M.next s w).2.1 + cnt w = tap s + cnt (M.next s w).2.2 + Res.rows (M.next s w).1 + lost
  seek : ∀ s k w, tap (M.seek s k w).2.1 = tap s ∧ cnt (M.seek s k w).2.2 = cnt w

/-! ## Filters -/

theorem filterLoop_accounts {g : Stage} {f : FilterFn} {U : Mach} {c : U.St → Nat} (hU : RowMeter g U c)
    (hf : ∀ w kv, (f w kv).2.stats g = w.stats g) (n : Nat) : ∀ (s : U.St) (w : World),
    ∃ lost, lost ≤ 1 - Res.rows (filterLoop g f U n s w).1 ∧
      ((∀ w kv, (f w kv).1 = .pass ∨ (f w kv).1 = .drop) → lost = 0) ∧
      c (filterLoop g f U n s w).2.1 + (w.stats g).filtered =
        c s + ((filterLoop g f U n s w).2.2.stats g).filtered +
          Res.rows (filterLoop g f U n s w).1 + lost := by
  induction n with
  | zero => intro s w; exact ⟨0, Nat.zero_le _, fun _ => rfl, by simp [filterLoop, Res.rows]⟩
  | succ n ih =>
    intro s w
    obtain ⟨hc, h0, -⟩ := hU.next s w
    unfold filterLoop
    rcases hn : U.next s w with ⟨r, s1, w1⟩
    rw [hn] at h0 hc
    simp only at h0 hc
    cases r with
    | done => exact ⟨0, Nat.zero_le _, fun _ => rfl, by simp [hc, Res.rows, h0]⟩
    | timeout => exact ⟨0, Nat.zero_le _, fun _ => rfl, by simp [hc, Res.rows, h0]⟩
    | fault e => exact ⟨0, Nat.zero_le _, fun _ => rfl, by simp [hc, Res.rows, h0]⟩
    | item kv =>
      have h1 := hf w1 kv
      simp only
      rcases hv : f w1 kv with ⟨v, w2⟩
      rw [hv] at h1
      simp only at h1
      simp only [Res.rows] at hc
      cases v with
      | pass => exact ⟨0, Nat.zero_le _, fun _ => rfl, by simp only [Res.rows]; rw [h1, h0]; omega⟩
      | drop =>
        simp only
        obtain ⟨lost, a1, a2, a3⟩ := ih s1 (w2.upd g fun c => { c with filtered := c.filtered + 1 })
        refine ⟨lost, a1, a2, ?_⟩
        rw [upd_same, h1, h0] at a3
        simp only at a3
        omega
      | seekTo k =>
        obtain ⟨hc2, h2, -⟩ := hU.seek s1 k (w2.upd g fun c => { c with seek := c.seek + 1 })
        have hnq : ¬ ∀ w kv, (f w kv).1 = .pass ∨ (f w kv).1 = .drop := by
          intro h
          have := h w1 kv
          rw [hv] at this
          rcases this with h | h <;> cases h
        rw [upd_same] at h2
        simp only
        rcases hs : U.seek s1 k (w2.upd g fun c => { c with seek := c.seek + 1 }) with ⟨b, s3, w3⟩
        rw [hs] at h2 hc2
        simp only at h2 hc2
        cases b with
        | true =>
          simp only
          obtain ⟨lost, a1, a2, a3⟩ := ih s3 (w3.upd g fun c => { c with filtered := c.filtered + 1 })
          refine ⟨lost, a1, a2, ?_⟩
          rw [upd_same, h2] at a3
          simp only [h1, h0] at a3
          omega
        | false =>
          refine ⟨1, by simp [Res.rows], fun h => absurd h hnq, ?_⟩
          simp only [Res.rows]
          rw [h2]
          simp only [h1, h0]
          omega
      | stop =>
        refine ⟨1, by simp [Res.rows], fun h => ?_, by simp only [Res.rows]; rw [h1, h0]; omega⟩
        have := h w1 kv
        rw [hv] at this
        rcases this with h | h <;> cases h
      | fault e =>
        refine ⟨1, by simp [Res.rows], fun h => ?_, by simp only [Res.rows]; rw [h1, h0]; omega⟩
        have := h w1 kv
        rw [hv] at this
        rcases this with h | h <;> cases h

theorem filter_accounts {g : Stage} {f : FilterFn} {U : Mach} {c : U.St → Nat} (hU : RowMeter g U c)
    (hf : ∀ w kv, (f w kv).2.stats g = w.stats g) :
    Accounts (filterM g f U) c (fun w => (w.stats g).filtered)
      (∀ w kv, (f w kv).1 = .pass ∨ (f w kv).1 = .drop) where
  start V := hU.start V
  next s w := filterLoop_accounts hU hf _ s w
  seek s k w := ⟨(hU.seek s k w).1, congrArg Stats.filtered (hU.seek s k w).2.1⟩

/-! ## The offset -/

theorem filterOffset_stats (w : World) (kv : KV) (g : Stage) : (filterOffset w kv).2.stats g = w.stats g := by
  unfold filterOffset
  split <;> rfl

theorem filterOffset_clean (w : World) (kv : KV) : (filterOffset w kv).1 = .pass ∨ (filterOffset w kv).1 = .drop := by
  unfold filterOffset
  split
  · exact .inr rfl
  · exact .inl rfl

theorem offsetLoop_counts {M : Mach} (hM : Leaves .filterOffset M) (n : Nat) : ∀ (s : M.St) (w : World),
    ((filterLoop .filterOffset filterOffset M n s w).2.2.stats .filterOffset).filtered +
        (filterLoop .filterOffset filterOffset M n s w).2.2.offset = (w.stats .filterOffset).filtered + w.offset ∧
      (0 < Res.rows (filterLoop .filterOffset filterOffset M n s w).1 →
        (filterLoop .filterOffset filterOffset M n s w).2.2.offset = 0) ∧
      (filterLoop .filterOffset filterOffset M n s w).2.2.offset ≤ w.offset := by
  induction n with
  | zero => intro s w; exact ⟨rfl, fun h => by simp [filterLoop, Res.rows] at h, Nat.le_refl _⟩
  | succ n ih =>
    intro s w
    obtain ⟨h0, h1⟩ := hM.next s w
    have h1 := h1 rfl
    unfold filterLoop
    rcases hn : M.next s w with ⟨r, s1, w1⟩
    rw [hn] at h0 h1
    simp only at h0 h1
    cases r with
    | done => exact ⟨by simp only [h0, h1], fun h => by simp [Res.rows] at h, by simp [h1]⟩
    | timeout => exact ⟨by simp only [h0, h1], fun h => by simp [Res.rows] at h, by simp [h1]⟩
    | fault e => exact ⟨by simp only [h0, h1], fun h => by simp [Res.rows] at h, by simp [h1]⟩
    | item kv =>
      simp only
      by_cases hz : w1.offset > 0
      · have e : filterOffset w1 kv = (.drop, { w1 with offset := w1.offset - 1 }) := by simp [filterOffset, hz]
        rw [e]
        simp only
        obtain ⟨a1, a2, a3⟩ := ih s1 (World.upd { w1 with offset := w1.offset - 1 } .filterOffset
          fun c => { c with filtered := c.filtered + 1 })
        rw [upd_same, upd_offset] at a1
        rw [upd_offset] at a3
        simp only [h0] at a1 a3
        exact ⟨by omega, a2, by omega⟩
      · have e : filterOffset w1 kv = (.pass, w1) := by simp [filterOffset, hz]
        rw [e]
        exact ⟨by simp only [h0, h1], fun _ => by show w1.offset = 0; omega, by simp [h1]⟩

/-! ## Removal -/

/-- Nothing but a `seek` count of the removal stage may differ (and the clock). -/
def OnlySeeks (w w' : World) : Prop :=
  (w'.stats .removeStrict).filtered = (w.stats .removeStrict).filtered ∧ w'.offset = w.offset ∧
  ∀ g, g ≠ .removeStrict → w'.stats g = w.stats g

theorem OnlySeeks.refl (w : World) : OnlySeeks w w := ⟨rfl, rfl, fun _ _ => rfl⟩

theorem OnlySeeks.trans {a b c : World} (h1 : OnlySeeks a b) (h2 : OnlySeeks b c) : OnlySeeks a c :=
  ⟨h2.1.trans h1.1, h2.2.1.trans h1.2.1, fun g hg => (h2.2.2 g hg).trans (h1.2.2 g hg)⟩

theorem onlySeeks_upd (w : World) : OnlySeeks w (w.upd .removeStrict fun c => { c with seek := c.seek + 1 }) :=
  ⟨by rw [upd_same], rfl, fun g hg => upd_other w hg _⟩

theorem cur_next_keeps (T : Table) (sf : View → Bytes → Bool) (s : View × Table) (w : World) :
    ((curM T sf).next s w).2.2 = w := by
  rcases s with ⟨V, _ | ⟨kv, r⟩⟩
  · rfl
  · show (if V.ok kv.1 = true then (Res.item kv, (V, r), w) else (Res.done, (V, kv :: r), w)).2.2 = w
    split <;> rfl

theorem dropWhile_head {α : Type} {p : α → Bool} {l : List α} {x : α} {r : List α}
    (h : l.dropWhile p = x :: r) : p x = false := by
  induction l with
  | nil => simp at h
  | cons a l ih =>
    rw [List.dropWhile_cons] at h
    split at h
    · exact ih h
    · rename_i hp; cases h; simpa using hp

theorem rmFetch_counts (R : Src) (s : View × Table) (k : Bytes) (w : World) :
    OnlySeeks w (rmFetch R s k w).2.2 ∧ ∀ k', (rmFetch R s k w).1 = some k' → lexLt k' k = false := by
  unfold rmFetch
  have h1 : (R.mach.seek s k w).2.2 = w := rfl
  have h2 : (R.mach.seek s k w).2.1 = (s.1, R.rows.dropWhile fun kv => lexLt kv.1 k) := rfl
  rcases hs : R.mach.seek s k w with ⟨ok, s2, w2⟩
  rw [hs] at h1 h2
  simp only at h1 h2
  subst h1 h2
  cases ok with
  | false => exact ⟨.refl _, fun k' h => by cases h⟩
  | true =>
    simp only
    have h3 := cur_next_keeps R.rows R.seekFails (s.1, R.rows.dropWhile fun kv => lexLt kv.1 k)
      (w2.upd .removeStrict fun c => { c with seek := c.seek + 1 })
    have h4 : ∀ kv, (R.mach.next (s.1, R.rows.dropWhile fun kv => lexLt kv.1 k)
        (w2.upd .removeStrict fun c => { c with seek := c.seek + 1 })).1 = .item kv → lexLt kv.1 k = false := by
      intro kv h
      cases hd : R.rows.dropWhile (fun kv => lexLt kv.1 k) with
      | nil => rw [hd] at h; cases h
      | cons x r =>
        rw [hd] at h
        have h : (if s.1.ok x.1 = true then (Res.item x, (s.1, r), (w2.upd .removeStrict fun c => { c with seek := c.seek + 1 }))
          else (Res.done, (s.1, x :: r), (w2.upd .removeStrict fun c => { c with seek := c.seek + 1 }))).1 = .item kv := h
        split at h
        · cases h; exact dropWhile_head (p := fun kv : KV => lexLt kv.1 k) hd
        · cases h
    have h3 : (R.mach.next (s.1, R.rows.dropWhile fun kv => lexLt kv.1 k)
        (w2.upd .removeStrict fun c => { c with seek := c.seek + 1 })).2.2 = _ := h3
    generalize R.mach.next (s.1, R.rows.dropWhile fun kv => lexLt kv.1 k)
        (w2.upd .removeStrict fun c => { c with seek := c.seek + 1 }) = X at h3 h4
    obtain ⟨r, s3, w3⟩ := X
    simp only at h3 h4
    subst h3
    cases r with
    | item kv => exact ⟨onlySeeks_upd _, fun k' h => by cases h; exact h4 kv rfl⟩
    | done => exact ⟨onlySeeks_upd _, fun k' h => by cases h⟩
    | timeout => exact ⟨onlySeeks_upd _, fun k' h => by cases h⟩
    | fault e => exact ⟨onlySeeks_upd _, fun k' h => by cases h⟩

theorem rmAdvance_counts (k : Bytes) (n : Nat) : ∀ (e : RmEntry) (s : View × Table) (w : World),
    OnlySeeks w (rmAdvance k n e s w).2.2 := by
  induction n with
  | zero => intro e s w; exact .refl w
  | succ n ih =>
    intro e s w
    unfold rmAdvance
    split
    · exact .refl w
    · split
      · exact .refl w
      · exact .refl w
      · have := (rmFetch_counts e.src s k w).1
        rcases hf : rmFetch e.src s k w with ⟨o, s2, w2⟩
        rw [hf] at this
        cases o with
        | none => exact this
        | some k' => exact this.trans (ih _ _ _)

theorem rmAdvance_ends (k : Bytes) (n : Nat) (e : RmEntry) (s : View × Table) (w : World) :
    (rmAdvance k (n + 2) e s w).1 ≠ none := by
  unfold rmAdvance
  split
  · simp
  · split
    · simp
    · simp
    · have := (rmFetch_counts e.src s k w).2
      rcases hf : rmFetch e.src s k w with ⟨o, s2, w2⟩
      rw [hf] at this
      cases o with
      | none => simp
      | some k' =>
        simp only
        unfold rmAdvance
        split
        · simp
        · have h1 := this k' rfl
          split
          · simp
          · simp
          · rename_i hc
            rw [bytesCompare_lt.mp hc] at h1
            cases h1

theorem rmEntryMatch_counts (V : View) (k : Bytes) (e : RmEntry) (w : World) :
    OnlySeeks w (rmEntryMatch V k e w).2.2 ∧ (rmEntryMatch V k e w).1 ≠ none := by
  obtain ⟨src, it, key, fin⟩ := e
  unfold rmEntryMatch
  cases it with
  | some s => exact ⟨rmAdvance_counts k _ _ s w, rmAdvance_ends k _ _ s w⟩
  | none =>
    simp only
    have := (rmFetch_counts src (src.mach.start V) k w).1
    rcases hf : rmFetch src (src.mach.start V) k w with ⟨o, s2, w2⟩
    rw [hf] at this
    cases o with
    | none => exact ⟨this, by simp⟩
    | some k' => exact ⟨this.trans (rmAdvance_counts _ _ _ _ _), rmAdvance_ends _ _ _ _ _⟩

/-- Removing a row adds one to `filtered`; letting one pass adds nothing. -/
theorem matchKey_counts (V : View) (k : Bytes) : ∀ (es seen : List RmEntry) (w : World),
    ∃ b, (matchKey V k seen es w).1 = some b ∧
      ((matchKey V k seen es w).2.2.stats .removeStrict).filtered =
        (w.stats .removeStrict).filtered + (if b then 1 else 0) ∧
      (matchKey V k seen es w).2.2.offset = w.offset ∧
      ∀ g, g ≠ .removeStrict → (matchKey V k seen es w).2.2.stats g = w.stats g := by
  intro es
  induction es with
  | nil => intro seen w; exact ⟨false, rfl, rfl, rfl, fun _ _ => rfl⟩
  | cons e es ih =>
    intro seen w
    unfold matchKey
    obtain ⟨h1, h2⟩ := rmEntryMatch_counts V k e w
    rcases hf : rmEntryMatch V k e w with ⟨o, e2, w2⟩
    rw [hf] at h1 h2
    simp only at h1 h2
    cases o with
    | none => exact absurd rfl h2
    | some b =>
      cases b with
      | true =>
        refine ⟨true, rfl, ?_, h1.2.1, fun g hg => ?_⟩
        · show ((w2.upd .removeStrict fun c => { c with filtered := c.filtered + 1 }).stats .removeStrict).filtered = _
          rw [upd_same]; simp [h1.1]
        · show (w2.upd .removeStrict fun c => { c with filtered := c.filtered + 1 }).stats g = _
          rw [upd_other _ hg]; exact h1.2.2 g hg
      | false =>
        obtain ⟨b, a1, a2, a3, a4⟩ := ih (e2 :: seen) w2
        exact ⟨b, a1, by rw [← h1.1]; exact a2, a3.trans h1.2.1, fun g hg => (a4 g hg).trans (h1.2.2 g hg)⟩

theorem rmSeekAll_counts (k : Bytes) : ∀ (es : List RmEntry) (w : World), OnlySeeks w (rmSeekAll k es w).2 := by
  intro es
  induction es with
  | nil => intro w; exact .refl w
  | cons e es ih =>
    intro w
    have h1 : OnlySeeks w (rmEntrySeek k e w).2 := by
      obtain ⟨src, it, key, fin⟩ := e
      unfold rmEntrySeek
      cases it with
      | none => exact .refl w
      | some s =>
        simp only
        split
        · have := (rmFetch_counts src s k w).1
          rcases hf : rmFetch src s k w with ⟨o, s2, w2⟩
          rw [hf] at this
          cases o <;> exact this
        · exact .refl w
    exact h1.trans (ih _)

theorem OnlySeeks.untouched {w w' : World} (h : OnlySeeks w w') {g : Stage} (hg : g ≠ .removeStrict) : Untouched g w w' :=
  ⟨h.2.2 g hg, fun _ => h.2.1⟩

theorem removeLoop_accounts {U : Mach} {c : U.St → Nat} (hU : RowMeter .removeStrict U c) (n : Nat) :
    ∀ (s : RemoveSt U) (w : World),
      c (removeLoop U n s w).2.1.up + (w.stats .removeStrict).filtered =
        c s.up + ((removeLoop U n s w).2.2.stats .removeStrict).filtered +
          Res.rows (removeLoop U n s w).1 := by
  induction n with
  | zero => intro s w; simp [removeLoop, Res.rows]
  | succ n ih =>
    intro s w
    obtain ⟨hc, h0, -⟩ := hU.next s.up w
    unfold removeLoop
    rcases hn : U.next s.up w with ⟨r, s1, w1⟩
    rw [hn] at h0 hc
    simp only at h0 hc
    cases r with
    | done => simp [Res.rows, h0, hc]
    | timeout => simp [Res.rows, h0, hc]
    | fault e => simp [Res.rows, h0, hc]
    | item kv =>
      simp only
      obtain ⟨b, a1, a2, -, -⟩ := matchKey_counts s.view kv.1 s.entries [] w1
      rcases hk : matchKey s.view kv.1 [] s.entries w1 with ⟨o, es, w2⟩
      rw [hk] at a1 a2
      simp only at a1 a2
      subst a1
      simp only [Res.rows] at hc
      cases b with
      | true =>
        simp only
        have := ih { s with up := s1, entries := es } w2
        simp only [if_true] at a2
        rw [a2, h0] at this
        simp only at this
        omega
      | false =>
        simp only [Res.rows]
        rw [a2, h0]
        simp only [Bool.false_eq_true, if_false]
        omega

theorem remove_accounts {U : Mach} {c : U.St → Nat} (hU : RowMeter .removeStrict U c) (rms : List Src) :
    Accounts (removeM rms U) (fun s => c s.up) (fun w => (w.stats .removeStrict).filtered) True where
  start V := hU.start V
  next s w := ⟨0, Nat.zero_le _, fun _ => rfl, removeLoop_accounts hU _ s w⟩
  seek s k w := by
    have h1 := rmSeekAll_counts k s.entries w
    have h2 := hU.seek s.up k (rmSeekAll k s.entries w).2
    exact ⟨h2.1, (congrArg Stats.filtered h2.2.1).trans h1.1⟩

/-! ## Left join -/

theorem ljoinFetch_left (L R : Mach) (s : LjoinSt L R) (w : World) : (ljoinFetch L R s w).2.1.left = s.left := by
  unfold ljoinFetch
  split
  · rfl
  · rcases R.next s.right w with ⟨_ | _ | _ | _, s', w'⟩ <;> rfl

theorem ljoinLoop_left (mg : MergeFn) (L R : Mach) (kv : KV) (n : Nat) : ∀ (s : LjoinSt L R) (w : World),
    (ljoinLoop mg L R kv n s w).2.1.left = s.left := by
  induction n with
  | zero => intro s w; rfl
  | succ n ih =>
    intro s w
    unfold ljoinLoop
    split
    · rfl
    · have h := ljoinFetch_left L R s w
      rcases hf : ljoinFetch L R s w with ⟨r, s1, w1⟩
      rw [hf] at h
      simp only at h
      rw [← h]
      cases r with
      | done => rfl
      | timeout => rfl
      | fault e => rfl
      | item x =>
        simp only
        unfold ljoinCompare
        split
        · rcases R.seek s1.right kv.1 w1 with ⟨_ | _, s2, w2⟩
          · rfl
          · exact ih _ _
        · rfl
        · split <;> rfl

theorem ljoin_next_left (mg : MergeFn) (L R : Mach) (s : LjoinSt L R) (w : World) :
    ((ljoinM mg L R).next s w).2.1.left = (L.next s.left w).2.1 ∧
      Res.rows ((ljoinM mg L R).next s w).1 ≤ Res.rows (L.next s.left w).1 := by
  simp only [ljoinM]
  rcases hn : L.next s.left w with ⟨r, s1, w1⟩
  cases r with
  | done => exact ⟨rfl, Nat.le_refl _⟩
  | timeout => exact ⟨rfl, Nat.le_refl _⟩
  | fault e => exact ⟨rfl, Nat.le_refl _⟩
  | item kv => exact ⟨ljoinLoop_left mg L R kv _ { s with left := s1 } w1, rows_le_one _⟩

theorem ljoin_seek_left (mg : MergeFn) (L R : Mach) (s : LjoinSt L R) (k : Bytes) (w : World) :
    ((ljoinM mg L R).seek s k w).2.1.left = (L.seek s.left k w).2.1 := by
  simp only [ljoinM]
  rcases hn : L.seek s.left k w with ⟨_ | _, s1, w1⟩ <;> rfl

theorem ljoin_accounts {g : Stage} (mg : MergeFn) {L R : Mach} {c : L.St → Nat} (hL : RowMeter g L c) :
    Accounts (ljoinM mg L R) (fun s => c s.left) (fun _ => 0) False where
  start V := hL.start V
  next s w := by
    obtain ⟨h1, h2⟩ := ljoin_next_left mg L R s w
    have h3 := (hL.next s.left w).1
    refine ⟨Res.rows (L.next s.left w).1 - Res.rows ((ljoinM mg L R).next s w).1, ?_, fun h => h.elim, ?_⟩
    · have := rows_le_one (L.next s.left w).1
      omega
    · simp only [h1, h3]
      omega
  seek s k w := ⟨(congrArg c (ljoin_seek_left mg L R s k w)).trans (hL.seek s.left k w).1, rfl⟩

/-! ## A stage with a source under it -/

/-- What happens below a stage, seen from above: a relation between states before and after which holds
for one call, composes, and ignores what other stages do. -/
structure Closed (g : Stage) (X : Mach) (T : X.St → World → X.St → World → Prop) : Prop where
  env : ∀ s w w', Untouched g w w' → T s w s w'
  trans : ∀ {s w s1 w1 s2 w2}, T s w s1 w1 → T s1 w1 s2 w2 → T s w s2 w2
  next : ∀ s w, T s w (X.next s w).2.1 (X.next s w).2.2
  seek : ∀ s k w, T s w (X.seek s k w).2.1 (X.seek s k w).2.2

theorem Closed.timeout {g : Stage} {X : Mach} {T : X.St → World → X.St → World → Prop} (h : Closed g X T) :
    Closed g (timeoutM X) T where
  env := h.env
  trans := h.trans
  next s w := by
    simp only [timeoutM]
    split
    · split
      · exact h.env _ _ _ ⟨rfl, fun _ => rfl⟩
      · exact h.env _ _ _ ⟨rfl, fun _ => rfl⟩
    · exact h.trans (h.env s w { w with tick := w.tick + 1 } ⟨rfl, fun _ => rfl⟩) (h.next _ _)
  seek := h.seek

theorem Closed.filterLoop {g g' : Stage} (hne : g ≠ g') {X : Mach} {T : X.St → World → X.St → World → Prop}
    (h : Closed g X T) {f : FilterFn} (hf : ∀ w kv, Untouched g w (f w kv).2) (n : Nat) : ∀ s w,
    T s w (filterLoop g' f X n s w).2.1 (filterLoop g' f X n s w).2.2 := by
  induction n with
  | zero => intro s w; exact h.env _ _ _ (.refl _ _)
  | succ n ih =>
    intro s w
    have h0 := h.next s w
    unfold Verif.filterLoop
    rcases hn : X.next s w with ⟨r, s1, w1⟩
    rw [hn] at h0
    simp only at h0
    cases r with
    | done => exact h0
    | timeout => exact h0
    | fault e => exact h0
    | item kv =>
      have h1 := h.env s1 _ _ (hf w1 kv)
      simp only
      rcases hv : f w1 kv with ⟨v, w2⟩
      rw [hv] at h1
      have h1 := h.trans h0 h1
      cases v with
      | pass => exact h1
      | drop => exact h.trans (h.trans h1 (h.env _ _ _ (untouched_upd hne _ _))) (ih _ _)
      | stop => exact h1
      | fault e => exact h1
      | seekTo k =>
        have h2 := h.trans (h.trans h1 (h.env _ _ _ (untouched_upd hne (fun c => { c with seek := c.seek + 1 }) _)))
          (h.seek s1 k _)
        simp only
        rcases hs : X.seek s1 k (w2.upd g' fun c => { c with seek := c.seek + 1 }) with ⟨b, s3, w3⟩
        rw [hs] at h2
        simp only at h2
        cases b with
        | false => exact h2
        | true => exact h.trans (h.trans h2 (h.env _ _ _ (untouched_upd hne _ _))) (ih _ _)

theorem Closed.filter {g g' : Stage} (hne : g ≠ g') {X : Mach} {T : X.St → World → X.St → World → Prop}
    (h : Closed g X T) {f : FilterFn} (hf : ∀ w kv, Untouched g w (f w kv).2) : Closed g (filterM g' f X) T where
  env := h.env
  trans := h.trans
  next s w := h.filterLoop hne hf _ s w
  seek := h.seek

theorem Closed.remove {g : Stage} (hne : g ≠ .removeStrict) {X : Mach} {T : X.St → World → X.St → World → Prop}
    (h : Closed g X T) (rms : List Src) :
    Closed g (removeM rms X) fun s w s' w' => T s.up w s'.up w' where
  env s w w' e := h.env _ _ _ e
  trans := h.trans
  next s w := by
    have loop : ∀ n (s : RemoveSt X) w, T s.up w (removeLoop X n s w).2.1.up (removeLoop X n s w).2.2 := by
      intro n
      induction n with
      | zero => intro s w; exact h.env _ _ _ (.refl _ _)
      | succ n ih =>
        intro s w
        have h0 := h.next s.up w
        unfold removeLoop
        rcases hn : X.next s.up w with ⟨r, s1, w1⟩
        rw [hn] at h0
        simp only at h0
        cases r with
        | done => exact h0
        | timeout => exact h0
        | fault e => exact h0
        | item kv =>
          simp only
          obtain ⟨b, a1, -, a3, a4⟩ := matchKey_counts s.view kv.1 s.entries [] w1
          have a4 : Untouched g w1 _ := ⟨a4 g hne, fun _ => a3⟩
          rcases hk : matchKey s.view kv.1 [] s.entries w1 with ⟨o, es, w2⟩
          rw [hk] at a1 a4
          simp only at a1 a4
          subst a1
          have h1 := h.trans h0 (h.env s1 _ _ a4)
          cases b with
          | true => exact h.trans h1 (ih { s with up := s1, entries := es } w2)
          | false => exact h1
    exact loop _ s w
  seek s k w := h.trans (h.env s.up _ _ ((rmSeekAll_counts k s.entries w).untouched hne)) (h.seek _ _ _)

theorem cur_untouched (g : Stage) (R : Src) (s : View × Table) (w : World) : Untouched g w (R.mach.next s w).2.2 := by
  have h := cur_next_keeps R.rows R.seekFails s w
  exact ⟨by rw [show (R.mach.next s w).2.2 = _ from h], fun _ => by rw [show (R.mach.next s w).2.2 = _ from h]⟩

theorem Closed.ljoin {g : Stage} (hne : g ≠ .ljoin) {X : Mach} {T : X.St → World → X.St → World → Prop}
    (h : Closed g X T) (mg : MergeFn) (R : Src) :
    Closed g (ljoinM mg X R.mach) fun s w s' w' => T s.left w s'.left w' where
  env s w w' e := h.env _ _ _ e
  trans := h.trans
  next s w := by
    have loop : ∀ n kv (s : LjoinSt X R.mach) w, Untouched g w (ljoinLoop mg X R.mach kv n s w).2.2 := by
      intro n kv
      induction n with
      | zero => intro s w; exact .refl _ _
      | succ n ih =>
        intro s w
        have h0 : Untouched g w (ljoinFetch X R.mach s w).2.2 := by
          unfold ljoinFetch
          split
          · exact .refl _ _
          · have := cur_untouched g R s.right w
            rcases hn : R.mach.next s.right w with ⟨r, s', w'⟩
            rw [hn] at this
            cases r <;> exact this
        unfold ljoinLoop
        split
        · exact .refl _ _
        · rcases hf : ljoinFetch X R.mach s w with ⟨r, s1, w1⟩
          rw [hf] at h0
          simp only at h0
          cases r with
          | done => exact h0
          | timeout => exact h0
          | fault e => exact h0
          | item x =>
            simp only
            unfold ljoinCompare
            split
            · have hw : (R.mach.seek s1.right kv.1 w1).2.2 = w1 := rfl
              rcases hs : R.mach.seek s1.right kv.1 w1 with ⟨b, s2, w2⟩
              rw [hs] at hw
              simp only at hw
              subst hw
              cases b with
              | false => exact h0
              | true => exact (h0.trans (untouched_upd hne _ _)).trans (ih _ _)
            · exact h0
            · split
              · exact h0.trans (untouched_upd hne (fun c => { c with merged := c.merged + 1 }) w1)
              · exact h0
              · exact h0
    have h0 := h.next s.left w
    simp only [ljoinM]
    rcases hn : X.next s.left w with ⟨r, s1, w1⟩
    rw [hn] at h0
    simp only at h0
    cases r with
    | done => exact h0
    | timeout => exact h0
    | fault e => exact h0
    | item kv =>
      have := ljoinLoop_left mg X R.mach kv (R.mach.size s.right + 3) { s with left := s1 } w1
      show T s.left w (ljoinLoop mg X R.mach kv (R.mach.size s.right + 3) { s with left := s1 } w1).2.1.left _
      rw [this]
      exact h.trans h0 (h.env _ _ _ (loop _ _ _ _))
  seek s k w := by
    have h0 := h.seek s.left k w
    simp only [ljoinM]
    rcases hn : X.seek s.left k w with ⟨b, s1, w1⟩
    rw [hn] at h0
    simp only at h0
    cases b with
    | false => exact h0
    | true => exact h0

theorem Closed.op {g : Stage} {X : Mach} {T : X.St → World → X.St → World → Prop} (h : Closed g X T)
    (o : PipeOp) (ho : o.stage ≠ some g) :
    Closed g (o.on X) fun s w s' w' => T (o.under X s) w (o.under X s') w' := by
  cases o with
  | timeout => exact h.timeout
  | filter g' f => exact h.filter (fun e => ho (by rw [e]; rfl)) fun w kv => .refl _ _
  | offset =>
    have hne : g ≠ .filterOffset := fun e => ho (by rw [e]; rfl)
    exact h.filter hne fun w kv => ⟨filterOffset_stats w kv g, fun e => absurd e hne⟩
  | remove rms => exact h.remove (fun e => ho (by rw [e]; rfl)) rms
  | ljoin R => exact h.ljoin (fun e => ho (by rw [e]; rfl)) mergeFunc R

theorem Closed.pipe {g : Stage} : ∀ (os : List PipeOp) {X : Mach} {T : X.St → World → X.St → World → Prop},
    Closed g X T → (∀ o ∈ os, o.stage ≠ some g) →
    Closed g (pipe os X) fun s w s' w' => T (under os X s) w (under os X s') w'
  | [], _, _, h, _ => h
  | o :: os, _, _, h, ho =>
    Closed.pipe os (h.op o (ho o List.mem_cons_self)) fun o' h' => ho o' (List.mem_cons_of_mem _ h')

theorem leaves_pipe {g : Stage} {M : Mach} (h : Leaves g M) (os : List PipeOp) (ho : ∀ o ∈ os, o.stage ≠ some g) :
    Leaves g (pipe os M) := by
  have hc : Closed g M fun _ w _ w' => Untouched g w w' := ⟨fun _ _ _ e => e, .trans, h.next, h.seek⟩
  have := Closed.pipe os hc ho
  exact ⟨this.next, this.seek⟩

theorem leaves_cur (g : Stage) (R : Src) : Leaves g R.mach where
  next s w := cur_untouched g R s w
  seek _ _ _ := .refl _ _

theorem op_start (o : PipeOp) (M : Mach) (V : View) : o.under M ((o.on M).start V) = M.start V := by
  cases o <;> rfl

theorem under_start : ∀ (os : List PipeOp) (M : Mach) (V : View), under os M ((pipe os M).start V) = M.start V
  | [], _, _ => rfl
  | o :: os, M, V => by
    show o.under M (under os (o.on M) ((pipe os (o.on M)).start V)) = _
    rw [under_start os (o.on M) V, op_start]

/-! ## Histories -/

theorem sum_set {l : List Nat} : ∀ {i : Nat} {a b : Nat}, l[i]? = some a → (l.set i b).sum + a = l.sum + b := by
  induction l with
  | nil => intro i a b h; simp at h
  | cons x xs ih =>
    intro i a b h
    cases i with
    | zero => simp at h; subst h; simp; omega
    | succ i =>
      have := ih (i := i) (a := a) (b := b) (by simpa using h)
      simp only [List.set_cons_succ, List.sum_cons]
      omega

theorem total_set {St : Type} {f : St → Nat} {its : List St} {i : Nat} {s s' : St} (h : its[i]? = some s) :
    total f (its.set i s') + f s = total f its + f s' := by
  unfold total
  rw [List.map_set]
  exact sum_set (by simp [h])

theorem total_append {St : Type} (f : St → Nat) (its : List St) (s : St) : total f (its ++ [s]) = total f its + f s := by
  simp [total]

/-- What holds of a history: anything that opening an iterator, the calls and the rest of the world keep. -/
theorem history_ind {g : Stage} {X : Mach} {T : X.St → World → X.St → World → Prop} (hT : Closed g X T)
    (P : List X.St → World → Prop) (w0 : World) (init : P [] w0)
    (hopen : ∀ its w V, P its w → P (its ++ [X.start V]) w)
    (hcall : ∀ its w i s s' w', P its w → its[i]? = some s → T s w s' w' → P (its.set i s') w')
    (henv : ∀ its w w', P its w → Untouched g w w' → P its w') (ops : List Event) :
    P (history g X w0 ops).its (history g X w0 ops).world := by
  have gen : ∀ (ops : List Event) (h : Hist X), P h.its h.world →
      P (ops.foldl (Hist.step g) h).its (ops.foldl (Hist.step g) h).world := by
    intro ops
    induction ops with
    | nil => intro h hh; exact hh
    | cons o os ih =>
      intro h hh
      refine ih _ ?_
      cases o with
      | openIter V => exact hopen _ _ V hh
      | next i =>
        cases hi : h.its[i]? with
        | none => simp only [Hist.step, hi]; exact hh
        | some s =>
          simp only [Hist.step, hi]
          exact hcall _ _ i s _ _ hh hi (hT.next s h.world)
      | seek i k =>
        cases hi : h.its[i]? with
        | none => simp only [Hist.step, hi]; exact hh
        | some s =>
          simp only [Hist.step, hi]
          exact hcall _ _ i s _ _ hh hi (hT.seek s k h.world)
      | outside w => exact henv _ _ _ hh ⟨if_pos rfl, fun e => if_pos e⟩
  exact gen ops _ init

/-! ## The balance of a stage -/

theorem op_accounts {g : Stage} {U : Mach} {c : U.St → Nat} (hU : RowMeter g U c) (o : PipeOp) (ho : o.stage = some g) :
    Accounts (o.on U) (fun s => c (o.under U s)) o.rejected o.clean := by
  cases o with
  | timeout => cases ho
  | filter g' f =>
    cases ho
    have := filter_accounts (f := pureF f) hU fun _ _ => rfl
    refine ⟨this.start, fun s w => ?_, this.seek⟩
    obtain ⟨l, a, b, d⟩ := this.next s w
    exact ⟨l, a, fun h => b fun _ kv => h kv, d⟩
  | offset =>
    cases ho
    have := filter_accounts (f := filterOffset) hU fun w kv => filterOffset_stats w kv _
    refine ⟨this.start, fun s w => ?_, this.seek⟩
    obtain ⟨l, a, b, d⟩ := this.next s w
    exact ⟨l, a, fun _ => b filterOffset_clean, d⟩
  | remove rms => cases ho; exact remove_accounts hU rms
  | ljoin R => cases ho; exact ljoin_accounts mergeFunc hU

theorem rejected_untouched {g : Stage} {o : PipeOp} (ho : o.stage = some g) {w w' : World} (h : Untouched g w w') :
    o.rejected w' = o.rejected w := by
  cases o with
  | timeout => rfl
  | filter g' f => cases ho; exact congrArg Stats.filtered h.1
  | offset => cases ho; exact congrArg Stats.filtered h.1
  | remove rms => cases ho; exact congrArg Stats.filtered h.1
  | ljoin R => rfl

/-- Rows taken are rows handed on, rows counted, and rows lost at the end of calls. -/
def Balance (o : PipeOp) {X : Mach} (a b e : X.St → Nat) (s : X.St) (w : World) (s' : X.St) (w' : World) : Prop :=
  ∃ lost, lost + e s ≤ e s' ∧ (o.clean → lost = 0) ∧
    a s' + o.rejected w + b s = a s + o.rejected w' + b s' + lost

theorem balance_closed {g : Stage} {Y : Mach} (hY : Leaves g Y) (o : PipeOp) (ho : o.stage = some g) :
    Closed g (tapM (o.on (tapM Y)))
      (Balance o (X := tapM (o.on (tapM Y))) (fun s => (o.under (tapM Y) s.1).2.1) (fun s => s.2.1) fun s => s.2.2) where
  env s w w' h := ⟨0, by simp, fun _ => rfl, by simp only [rejected_untouched ho h, Nat.add_zero]⟩
  trans := by
    rintro s w s1 w1 s2 w2 ⟨l1, a1, b1, c1⟩ ⟨l2, a2, b2, c2⟩
    exact ⟨l1 + l2, by omega, fun h => by rw [b1 h, b2 h], by omega⟩
  next s w := by
    obtain ⟨l, a, b, d⟩ := (op_accounts (rowMeter_tap hY) o ho).next s.1 w
    have h1 : ((tapM (o.on (tapM Y))).next s w).2.1.1 = ((o.on (tapM Y)).next s.1 w).2.1 := rfl
    have h2 : ((tapM (o.on (tapM Y))).next s w).2.1.2.1 = s.2.1 + Res.rows ((o.on (tapM Y)).next s.1 w).1 := rfl
    have h3 : ((tapM (o.on (tapM Y))).next s w).2.1.2.2 = s.2.2 + (1 - Res.rows ((o.on (tapM Y)).next s.1 w).1) := rfl
    have h4 : ((tapM (o.on (tapM Y))).next s w).2.2 = ((o.on (tapM Y)).next s.1 w).2.2 := rfl
    refine ⟨l, ?_, b, ?_⟩
    · simp only [h3]; omega
    · simp only [h1, h2, h4]; omega
  seek s k w := by
    obtain ⟨a, b⟩ := (op_accounts (rowMeter_tap hY) o ho).seek s.1 k w
    have h1 : ((tapM (o.on (tapM Y))).seek s k w).2.1.1 = ((o.on (tapM Y)).seek s.1 k w).2.1 := rfl
    have h2 : ((tapM (o.on (tapM Y))).seek s k w).2.1.2 = s.2 := rfl
    have h4 : ((tapM (o.on (tapM Y))).seek s k w).2.2 = ((o.on (tapM Y)).seek s.1 k w).2.2 := rfl
    refine ⟨0, ?_, fun _ => rfl, ?_⟩
    · simp only [h2]; omega
    · simp only [h1, h2, h4]; omega

/-- The same for the offset: what is left of it and what was counted add up, and rows are handed on only
when nothing is left. -/
def OffsetLaw {X : Mach} (b : X.St → Nat) (s : X.St) (w : World) (s' : X.St) (w' : World) : Prop :=
  (w'.stats .filterOffset).filtered + w'.offset = (w.stats .filterOffset).filtered + w.offset ∧
  b s ≤ b s' ∧ (b s < b s' → w'.offset = 0) ∧ w'.offset ≤ w.offset

theorem offset_closed {Y : Mach} (hY : Leaves .filterOffset Y) :
    Closed .filterOffset (tapM (PipeOp.offset.on Y)) (OffsetLaw (X := tapM (PipeOp.offset.on Y)) fun s => s.2.1) where
  env s w w' h := ⟨by rw [h.1, h.2 rfl], Nat.le_refl _, fun h => absurd h (Nat.lt_irrefl _), by rw [h.2 rfl]; exact Nat.le_refl _⟩
  trans := by
    rintro s w s1 w1 s2 w2 ⟨a1, b1, c1, d1⟩ ⟨a2, b2, c2, d2⟩
    refine ⟨by omega, by omega, fun h => ?_, by omega⟩
    by_cases h1 : s.2.1 < s1.2.1
    · have := c1 h1; omega
    · have h : s.2.1 < s2.2.1 := h
      have c2 : s1.2.1 < s2.2.1 → w2.offset = 0 := c2
      exact c2 (by omega)
  next s w := by
    obtain ⟨a1, a2, a3⟩ := offsetLoop_counts hY (Y.size s.1 + 1) s.1 w
    have h1 : ((tapM (PipeOp.offset.on Y)).next s w).2.1.2.1 =
      s.2.1 + Res.rows (filterLoop .filterOffset filterOffset Y (Y.size s.1 + 1) s.1 w).1 := rfl
    have h2 : ((tapM (PipeOp.offset.on Y)).next s w).2.2 =
      (filterLoop .filterOffset filterOffset Y (Y.size s.1 + 1) s.1 w).2.2 := rfl
    refine ⟨by rw [h2]; exact a1, by simp only [h1]; omega, fun h => ?_, by rw [h2]; exact a3⟩
    rw [h2]
    exact a2 (by simp only [h1] at h; omega)
  seek s k w := by
    have h0 := hY.seek s.1 k w
    have h1 : ((tapM (PipeOp.offset.on Y)).seek s k w).2.1.2 = s.2 := rfl
    have h2 : ((tapM (PipeOp.offset.on Y)).seek s k w).2.2 = (Y.seek s.1 k w).2.2 := rfl
    refine ⟨by rw [h2, h0.1, h0.2 rfl], by simp only [h1]; omega, fun h => ?_, by rw [h2, h0.2 rfl]; exact Nat.le_refl _⟩
    simp only [h1] at h; omega

/-! ## Observing changes nothing -/

/-- `M` behaves as `M'` does, with less in its iterators. -/
structure Erases (M' M : Mach) (e : M'.St → M.St) : Prop where
  start : ∀ V, M.start V = e (M'.start V)
  next : ∀ s w, M.next (e s) w = ((M'.next s w).1, e (M'.next s w).2.1, (M'.next s w).2.2)
  seek : ∀ s k w, M.seek (e s) k w = ((M'.seek s k w).1, e (M'.seek s k w).2.1, (M'.seek s k w).2.2)
  size : ∀ s, M.size (e s) = M'.size s

theorem erases_refl (M : Mach) : Erases M M id := ⟨fun _ => rfl, fun _ _ => rfl, fun _ _ _ => rfl, fun _ => rfl⟩

theorem erases_tap (M : Mach) : Erases (tapM M) M Prod.fst :=
  ⟨fun _ => rfl, fun _ _ => rfl, fun _ _ _ => rfl, fun _ => rfl⟩

theorem Erases.trans {A B C : Mach} {e : A.St → B.St} {d : B.St → C.St} (h1 : Erases A B e) (h2 : Erases B C d) :
    Erases A C (d ∘ e) where
  start V := by rw [h2.start, h1.start]; rfl
  next s w := by
    have := h2.next (e s) w
    rw [h1.next] at this
    exact this
  seek s k w := by
    have := h2.seek (e s) k w
    rw [h1.seek] at this
    exact this
  size s := (h2.size _).trans (h1.size s)

theorem Erases.timeout {M' M : Mach} {e : M'.St → M.St} (h : Erases M' M e) : Erases (timeoutM M') (timeoutM M) e where
  start := h.start
  next s w := by
    simp only [timeoutM]
    split
    · split <;> rfl
    · exact h.next _ _
  seek := h.seek
  size := h.size

theorem Erases.filterLoop {M' M : Mach} {e : M'.St → M.St} (h : Erases M' M e) (g : Stage) (f : FilterFn) (n : Nat) :
    ∀ s w, filterLoop g f M n (e s) w =
      ((filterLoop g f M' n s w).1, e (filterLoop g f M' n s w).2.1, (filterLoop g f M' n s w).2.2) := by
  induction n with
  | zero => intro s w; rfl
  | succ n ih =>
    intro s w
    unfold Verif.filterLoop
    rw [h.next]
    rcases M'.next s w with ⟨r, s1, w1⟩
    cases r with
    | done => rfl
    | timeout => rfl
    | fault x => rfl
    | item kv =>
      simp only
      rcases f w1 kv with ⟨v, w2⟩
      cases v with
      | pass => rfl
      | drop => exact ih _ _
      | stop => rfl
      | fault x => rfl
      | seekTo k =>
        simp only
        rw [h.seek]
        rcases M'.seek s1 k (w2.upd g fun c => { c with seek := c.seek + 1 }) with ⟨b, s3, w3⟩
        cases b with
        | false => rfl
        | true => exact ih _ _

theorem Erases.filter {M' M : Mach} {e : M'.St → M.St} (h : Erases M' M e) (g : Stage) (f : FilterFn) :
    Erases (filterM g f M') (filterM g f M) e where
  start := h.start
  next s w := by
    have this : ∀ s : M'.St, Verif.filterLoop g f M (M.size (e s) + 1) (e s) w =
        ((Verif.filterLoop g f M' (M'.size s + 1) s w).1, e (Verif.filterLoop g f M' (M'.size s + 1) s w).2.1,
          (Verif.filterLoop g f M' (M'.size s + 1) s w).2.2) := by
      intro s
      rw [h.size]
      exact h.filterLoop g f _ s w
    exact this s
  seek := h.seek
  size := h.size

theorem Erases.remove {M' M : Mach} {e : M'.St → M.St} (h : Erases M' M e) (rms : List Src) :
    Erases (removeM rms M') (removeM rms M) fun s => ⟨e s.up, s.entries, s.view⟩ where
  start V := by simp only [removeM, h.start]
  next s w := by
    have loop : ∀ n (s : RemoveSt M') w, removeLoop M n ⟨e s.up, s.entries, s.view⟩ w =
        ((removeLoop M' n s w).1, ⟨e (removeLoop M' n s w).2.1.up, (removeLoop M' n s w).2.1.entries,
          (removeLoop M' n s w).2.1.view⟩, (removeLoop M' n s w).2.2) := by
      intro n
      induction n with
      | zero => intro s w; rfl
      | succ n ih =>
        intro s w
        unfold removeLoop
        simp only
        rw [h.next]
        rcases M'.next s.up w with ⟨r, s1, w1⟩
        cases r with
        | done => rfl
        | timeout => rfl
        | fault x => rfl
        | item kv =>
          simp only
          rcases matchKey s.view kv.1 [] s.entries w1 with ⟨o, es, w2⟩
          rcases o with _ | _ | _
          · rfl
          · rfl
          · exact ih { s with up := s1, entries := es } w2
    show removeLoop M (M.size (e s.up) + 1) _ w = _
    rw [h.size]
    exact loop _ s w
  seek s k w := by
    have this : ∀ s : RemoveSt M', (removeM rms M).seek ⟨e s.up, s.entries, s.view⟩ k w =
        (((removeM rms M').seek s k w).1, ⟨e ((removeM rms M').seek s k w).2.1.up,
          ((removeM rms M').seek s k w).2.1.entries, ((removeM rms M').seek s k w).2.1.view⟩,
          ((removeM rms M').seek s k w).2.2) := by
      intro s
      have := h.seek s.up k (rmSeekAll k s.entries w).2
      have e1 := congrArg Prod.fst this
      have e2 := congrArg (fun x => x.2.1) this
      have e3 := congrArg (fun x => x.2.2) this
      exact Prod.ext e1 (Prod.ext
        (congrArg (fun u => (⟨u, (rmSeekAll k s.entries w).1, s.view⟩ : RemoveSt M)) e2) e3)
    exact this s
  size s := h.size _

theorem Erases.ljoin {M' M : Mach} {e : M'.St → M.St} (h : Erases M' M e) (mg : MergeFn) (R : Mach) :
    Erases (ljoinM mg M' R) (ljoinM mg M R) fun s => ⟨e s.left, s.right, s.finished, s.rkv⟩ where
  start V := by simp only [ljoinM, h.start]
  next s w := by
    have loop : ∀ n kv (s : LjoinSt M' R) w, ljoinLoop mg M R kv n ⟨e s.left, s.right, s.finished, s.rkv⟩ w =
        ((ljoinLoop mg M' R kv n s w).1, ⟨e (ljoinLoop mg M' R kv n s w).2.1.left, (ljoinLoop mg M' R kv n s w).2.1.right,
          (ljoinLoop mg M' R kv n s w).2.1.finished, (ljoinLoop mg M' R kv n s w).2.1.rkv⟩,
          (ljoinLoop mg M' R kv n s w).2.2) := by
      intro n kv
      induction n with
      | zero => intro s w; rfl
      | succ n ih =>
        intro s w
        have hf : ljoinFetch M R ⟨e s.left, s.right, s.finished, s.rkv⟩ w =
            ((ljoinFetch M' R s w).1, ⟨e (ljoinFetch M' R s w).2.1.left, (ljoinFetch M' R s w).2.1.right,
              (ljoinFetch M' R s w).2.1.finished, (ljoinFetch M' R s w).2.1.rkv⟩, (ljoinFetch M' R s w).2.2) := by
          unfold ljoinFetch
          rcases s with ⟨l, r, f, _ | x⟩
          · simp only
            rcases R.next r w with ⟨_ | _ | _ | _, s1, w1⟩ <;> rfl
          · rfl
        unfold ljoinLoop
        simp only
        by_cases hs : s.finished = true
        · rw [if_pos hs, if_pos hs]
        · rw [if_neg hs, if_neg hs, hf]
          rcases ljoinFetch M' R s w with ⟨r, s1, w1⟩
          cases r with
          | done => rfl
          | timeout => rfl
          | fault x => rfl
          | item x =>
            simp only
            unfold ljoinCompare
            cases bytesCompare x.1 kv.1 with
            | lt =>
              simp only
              rcases R.seek s1.right kv.1 w1 with ⟨b, s2, w2⟩
              cases b with
              | false => rfl
              | true => exact ih { s1 with right := s2, rkv := none } _
            | gt => rfl
            | eq =>
              simp only
              cases mg kv.1 kv.2 x.2 <;> rfl
    simp only [ljoinM]
    rw [h.next]
    rcases M'.next s.left w with ⟨r, s1, w1⟩
    cases r with
    | done => rfl
    | timeout => rfl
    | fault x => rfl
    | item kv => exact loop _ kv { s with left := s1 } w1
  seek s k w := by
    simp only [ljoinM]
    rw [h.seek]
    rcases M'.seek s.left k w with ⟨_ | _, s1, w1⟩ <;> rfl
  size s := h.size _

theorem Erases.op {M' M : Mach} {e : M'.St → M.St} (h : Erases M' M e) (o : PipeOp) :
    ∃ e', Erases (o.on M') (o.on M) e' := by
  cases o with
  | timeout => exact ⟨_, h.timeout⟩
  | filter g f => exact ⟨_, h.filter g (pureF f)⟩
  | offset => exact ⟨_, h.filter .filterOffset filterOffset⟩
  | remove rms => exact ⟨_, h.remove rms⟩
  | ljoin R => exact ⟨_, h.ljoin mergeFunc R.mach⟩

theorem Erases.pipe : ∀ (os : List PipeOp) {M' M : Mach} {e : M'.St → M.St}, Erases M' M e →
    ∃ e', Erases (pipe os M') (pipe os M) e'
  | [], _, _, _, h => ⟨_, h⟩
  | o :: os, _, _, _, h => by
    obtain ⟨_, h⟩ := h.op o
    exact Erases.pipe os h

theorem Erases.history {M' M : Mach} {e : M'.St → M.St} (h : Erases M' M e) (g : Stage) (w : World) (ops : List Event) :
    history g M w ops = ⟨(history g M' w ops).its.map e, (history g M' w ops).world, (history g M' w ops).rows,
      (history g M' w ops).ends⟩ := by
  have gen : ∀ (ops : List Event) (x : Hist M'), ops.foldl (Hist.step g) (⟨x.its.map e, x.world, x.rows, x.ends⟩ : Hist M) =
      ⟨(ops.foldl (Hist.step g) x).its.map e, (ops.foldl (Hist.step g) x).world, (ops.foldl (Hist.step g) x).rows,
        (ops.foldl (Hist.step g) x).ends⟩ := by
    intro ops
    induction ops with
    | nil => intro x; rfl
    | cons o os ih =>
      intro x
      simp only [List.foldl_cons]
      rw [← ih]
      congr 1
      cases o with
      | openIter V => simp [Hist.step, h.start]
      | next i =>
        simp only [Hist.step, List.getElem?_map]
        cases x.its[i]? with
        | none => rfl
        | some s => simp only [Option.map_some, h.next, List.map_set]
      | seek i k =>
        simp only [Hist.step, List.getElem?_map]
        cases x.its[i]? with
        | none => rfl
        | some s => simp only [Option.map_some, h.seek, List.map_set]
      | outside w => rfl
  exact gen ops ⟨[], w, 0, 0⟩

theorem pipe_append : ∀ (a b : List PipeOp) (M : Mach), pipe (a ++ b) M = pipe b (pipe a M)
  | [], _, _ => rfl
  | o :: a, b, M => pipe_append a b (o.on M)

theorem erases_observed (before : List PipeOp) (o : PipeOp) (after : List PipeOp) (M : Mach) :
    ∃ e, Erases (observed before o after M) (pipe (before ++ o :: after) M) e := by
  obtain ⟨_, h⟩ := (erases_tap (pipe before M)).op o
  obtain ⟨_, h⟩ := Erases.pipe after ((erases_tap _).trans h)
  rw [pipe_append]
  exact ⟨_, h⟩

/-! ## The calls of a query -/

/-- A history leads to these iterators and this world. -/
def Reach (g : Stage) (M : Mach) (w0 : World) (its : List M.St) (w : World) : Prop :=
  ∃ ops, (history g M w0 ops).its = its ∧ (history g M w0 ops).world = w

theorem reach_nil (g : Stage) (M : Mach) (w0 : World) : Reach g M w0 [] w0 := ⟨[], rfl, rfl⟩

theorem history_snoc (g : Stage) (M : Mach) (w0 : World) (ops : List Event) (o : Event) :
    history g M w0 (ops ++ [o]) = (history g M w0 ops).step g o := by
  simp [history, List.foldl_append]

theorem Reach.opened {g : Stage} {M : Mach} {w0 : World} {its : List M.St} {w : World} (h : Reach g M w0 its w)
    (V : View) : Reach g M w0 (its ++ [M.start V]) w := by
  obtain ⟨ops, h1, h2⟩ := h
  refine ⟨ops ++ [.openIter V], ?_, ?_⟩ <;> rw [history_snoc]
  · simp only [Hist.step, h1]
  · exact h2

theorem Reach.called {g : Stage} {M : Mach} {w0 : World} {its : List M.St} {s : M.St} {w : World}
    (h : Reach g M w0 (its ++ [s]) w) : Reach g M w0 (its ++ [(M.next s w).2.1]) (M.next s w).2.2 := by
  obtain ⟨ops, h1, h2⟩ := h
  refine ⟨ops ++ [.next its.length], ?_, ?_⟩ <;> rw [history_snoc]
  · simp [Hist.step, h1, h2]
  · simp [Hist.step, h1, h2]

theorem Reach.env {g : Stage} {M : Mach} {w0 : World} {its : List M.St} {w w' : World} (h : Reach g M w0 its w)
    (hw : Untouched g w w') : Reach g M w0 its w' := by
  obtain ⟨ops, h1, h2⟩ := h
  refine ⟨ops ++ [.outside w'], ?_, ?_⟩ <;> rw [history_snoc]
  · exact h1
  · simp only [Hist.step, h2]
    have : (fun x => if x = g then w.stats x else w'.stats x) = w'.stats := by
      funext x
      by_cases hx : x = g
      · rw [if_pos hx, hx, hw.1]
      · rw [if_neg hx]
    have ho : (if g = .filterOffset then w.offset else w'.offset) = w'.offset := by
      split
      · rename_i e; rw [hw.2 e]
      · rfl
    rw [this, ho]

theorem Reach.direct {g : Stage} {M : Mach} {w0 : World} {its : List M.St} (n : Nat) : ∀ {s : M.St} {w : World},
    Reach g M w0 (its ++ [s]) w →
      Reach g M w0 (its ++ [(directLoop M n s w).2.1]) (directLoop M n s w).2.2 := by
  induction n with
  | zero => intro s w h; exact h
  | succ n ih =>
    intro s w h
    have h0 := h.called
    unfold directLoop
    rcases hn : M.next s w with ⟨r, s1, w1⟩
    rw [hn] at h0
    cases r with
    | done => exact h0
    | timeout => exact h0
    | fault x => exact h0
    | item kv =>
      simp only
      cases entryDecode kv.1 kv.2 with
      | ok e => exact h0
      | fail => exact ih h0
      | fault f => exact h0

theorem directLoop_untouched {g : Stage} {M : Mach} (h : Leaves g M) (n : Nat) : ∀ (s : M.St) (w : World),
    Untouched g w (directLoop M n s w).2.2 := by
  induction n with
  | zero => intro s w; exact .refl _ _
  | succ n ih =>
    intro s w
    have h0 := h.next s w
    unfold directLoop
    rcases hn : M.next s w with ⟨r, s1, w1⟩
    rw [hn] at h0
    cases r with
    | done => exact h0
    | timeout => exact h0
    | fault x => exact h0
    | item kv =>
      simp only
      cases entryDecode kv.1 kv.2 with
      | ok e => exact h0
      | fail => exact .trans h0 (ih _ _)
      | fault f => exact h0

/-- The source of an indirect query: its open iterator is the last one. -/
theorem Reach.indirect {g : Stage} {I M : Mach} (hI : Leaves g I) {w0 : World} (q : Query) (tb : UInt8) (n : Nat) :
    ∀ (i : I.St) (m : Option M.St) (w : World) (its : List M.St), Reach g M w0 (its ++ m.toList) w →
      ∃ its', Reach g M w0 (its' ++ (indirectLoop q tb I M n i m w).2.1.2.toList) (indirectLoop q tb I M n i m w).2.2 := by
  induction n with
  | zero => intro i m w its h; exact ⟨its, h⟩
  | succ n ih =>
    intro i m w its h
    cases m with
    | some s =>
      have h0 := Reach.direct (M.size s + 1) h
      unfold indirectLoop
      rcases hd : directLoop M (M.size s + 1) s w with ⟨r, s1, w1⟩
      rw [hd] at h0
      cases r with
      | failure => exact ih i none w1 (its ++ [s1]) (by simpa using h0)
      | entry e => exact ⟨its, h0⟩
      | timeout => exact ⟨its, h0⟩
      | fault f => exact ⟨its, h0⟩
    | none =>
      have h0 := h.env (hI.next i w)
      unfold indirectLoop
      rcases hd : I.next i w with ⟨r, i1, w1⟩
      rw [hd] at h0
      simp only [Option.toList, List.append_nil] at h0
      cases r with
      | done => exact ⟨its, by simpa using h0⟩
      | timeout => exact ⟨its, by simpa using h0⟩
      | fault f => exact ⟨its, by simpa using h0⟩
      | item kv =>
        simp only
        cases indirectKey q tb kv with
        | fail => exact ⟨its, by simpa using h0⟩
        | fault f => exact ⟨its, by simpa using h0⟩
        | ok o =>
          cases o with
          | none => exact ih i1 none w1 its (by simpa using h0)
          | some k => exact ih i1 (some (M.start (.pfx k))) w1 its (h0.opened (.pfx k))

/-- The index of an indirect query: one iterator. -/
theorem Reach.index {g : Stage} {I M : Mach} (hM : Leaves g M) {w0 : World} (q : Query) (tb : UInt8) (n : Nat) :
    ∀ (i : I.St) (m : Option M.St) (w : World), Reach g I w0 [i] w →
      Reach g I w0 [(indirectLoop q tb I M n i m w).2.1.1] (indirectLoop q tb I M n i m w).2.2 := by
  induction n with
  | zero => intro i m w h; exact h
  | succ n ih =>
    intro i m w h
    cases m with
    | some s =>
      have h0 := h.env (directLoop_untouched hM (M.size s + 1) s w)
      unfold indirectLoop
      rcases hd : directLoop M (M.size s + 1) s w with ⟨r, s1, w1⟩
      rw [hd] at h0
      cases r with
      | failure => exact ih i none w1 h0
      | entry e => exact h0
      | timeout => exact h0
      | fault f => exact h0
    | none =>
      have h0 := Reach.called (its := []) h
      unfold indirectLoop
      rcases hd : I.next i w with ⟨r, i1, w1⟩
      rw [hd] at h0
      simp only [List.nil_append] at h0
      cases r with
      | done => exact h0
      | timeout => exact h0
      | fault f => exact h0
      | item kv =>
        simp only
        cases indirectKey q tb kv with
        | fail => exact h0
        | fault f => exact h0
        | ok o =>
          cases o with
          | none => exact ih i1 none w1 h0
          | some k => exact ih i1 _ w1 h0

theorem armTimer_untouched (g : Stage) (l : Limits) (w : World) : Untouched g w (armTimer l w) :=
  have := armTimer_keeps l w
  ⟨congrFun this.1 g, fun _ => this.2⟩

theorem disarm_untouched (g : Stage) (w : World) : Untouched g w (disarm w) := ⟨rfl, fun _ => rfl⟩

end Verif
