import Verif.Lemmas.Vector

/-!
# Growable arrays (C55)
-/

namespace Verif.Props
open Spec Vec

/-- An operation carried out on the array in memory; `grant` tells which requests for memory are served meanwhile. -/
def arrayStep {α : Type} (grant : Nat → Bool) (sz : Nat) (u : Vec α) : ArrayOp α → Out (Vec α)
  | .add x => u.add grant sz x
  | .append xs => u.append grant sz xs
  | .reserve k => u.reserve grant sz k
  | .fill k xs => do
    let u ← u.reserve grant sz k
    let u ← u.poke xs
    u.advance xs.length
  | .reset => u.reset grant sz
  | .clip k => .ok (u.clip k)
  | .detach => do
    let r ← u.detach grant sz
    .ok r.2

/-- The same for buffers of bytes. -/
def bufStep (grant : Nat → Bool) (u : Ubuf) : BufOp → Out Ubuf
  | .array op => arrayStep grant 1 u op
  | .addCstr s => Ubuf.addCstr grant s u
  | .addFmt s => Ubuf.addFmt grant s u
  | .cterm => Ubuf.cterm grant u
  | .rstrip c => Ubuf.rstrip c u

/-- A sequence of steps. -/
def steps' {σ ω : Type} (step : σ → ω → Out σ) : List ω → σ → Out σ
  | [], u => .ok u
  | o :: os, u => do let u ← step u o; steps' step os u

/-- C55, one operation.  The array holds what it should, in storage of at most twice the size needed (or as much as before);
the process is aborted only for want of memory; and nothing else happens, in particular nothing is written outside of the
storage. -/
theorem C55_array_step {α : Type} {grant : Nat → Bool} (hg : GrantOk grant) {sz : Nat} (hs : 0 < sz) {u : Vec α} {l : List α}
    (h : Holds sz u l) {op : ArrayOp α} (hop : op.Proper) :
    Faithful grant sz (op.effect l) u.hint (max (max u.nAlloced u.hint) (2 * op.need l)) (op.need l) (arrayStep grant sz u op) := by
  have mono : ∀ {l' cap cap' need x}, cap ≤ cap' → Faithful grant sz l' u.hint cap need x →
      Faithful (α := α) grant sz l' u.hint cap' need x := by
    rintro l' cap cap' need x hc (⟨v, h1, h2, h3, h4⟩ | h)
    · exact .inl ⟨v, h1, h2, h3, by omega⟩
    · exact .inr h
  cases op with
  | add x => exact mono (by simp only [ArrayOp.need]; omega) (add_faithful hg hs h)
  | append xs => exact mono (by simp only [ArrayOp.need]; omega) (append_faithful hg hs h)
  | reserve k =>
    rcases reserve_holds hg hs h k with ⟨u', e1, h1, h2, h3, h4⟩ | h1
    · exact .inl ⟨u', e1, h1, h2, by simp only [ArrayOp.need]; omega⟩
    · exact .inr h1
  | fill k xs =>
    have := fill_faithful hg hs h (xs := xs) (ys := []) (k := k) (by simpa [ArrayOp.Proper] using hop)
    rw [List.append_nil] at this
    exact mono (by simp only [ArrayOp.need]; omega) this
  | reset => exact mono (by omega) (reset_faithful hs h)
  | clip k =>
    obtain ⟨h1, h2, h3⟩ := clip_holds h k
    exact .inl ⟨_, rfl, h1, h2, by omega⟩
  | detach =>
    unfold arrayStep
    rcases detach_faithful (grant := grant) hs h with ⟨v, u', e1, -, h2, h3, h4⟩ | ⟨e1, h1⟩
    · simp only [e1, Out.ok_bind]
      exact .inl ⟨u', rfl, h2, h3, by omega⟩
    · simp only [e1, Out.fault_bind]
      exact .inr ⟨rfl, fun hc => h1 hc.1⟩

/-- C55, sequences of operations on an array just made: unless the process runs out of memory, the array holds what it
should. -/
theorem C55_array {α : Type} {sz : Nat} (hs : 0 < sz) (hz : sz ≤ 2 ^ 31) (hint : Nat) {grant : Nat → Bool} (hg : GrantOk grant)
    {ops : List (ArrayOp α)} (hops : ∀ op ∈ ops, op.Proper) :
    let x := (do let u ← Vec.init grant sz hint; steps' (arrayStep grant sz) ops u)
    x = .fault .abort ∨ ∃ u, x = .ok u ∧ u.n = (ops.foldl ArrayOp.effect []).length ∧
      u.data = some (ops.foldl ArrayOp.effect []) := by
  obtain ⟨h, -, -, hi⟩ := init_faithful (α := α) (grant := grant) hs hz hint
  have key : ∀ (ops : List (ArrayOp α)) {u : Vec α} {l : List α}, (∀ op ∈ ops, op.Proper) → Holds sz u l →
      steps' (arrayStep grant sz) ops u = .fault .abort ∨
      ∃ u', steps' (arrayStep grant sz) ops u = .ok u' ∧ Holds sz u' (ops.foldl ArrayOp.effect l) := by
    intro ops
    induction ops with
    | nil => exact fun _ h => .inr ⟨_, rfl, h⟩
    | cons o os ih =>
      intro u l hp hu
      unfold steps'
      rcases C55_array_step hg hs hu (hp o List.mem_cons_self) with ⟨u', e, h1, -⟩ | ⟨e, -⟩
      · rw [e, Out.ok_bind]
        exact ih (fun op hop => hp op (List.mem_cons_of_mem _ hop)) h1
      · rw [e]; exact .inl rfl
  rcases hi with ⟨u, e, h1, -⟩ | ⟨e, -⟩
  · simp only [e, Out.ok_bind]
    rcases key ops hops h1 with h2 | ⟨u', h2, h3⟩
    · exact .inl h2
    · exact .inr ⟨u', h2, h3.size, h3.data⟩
  · simp only [e, Out.fault_bind]; exact .inl trivial

/-- C55, one operation on a buffer of bytes. -/
theorem C55_buffer_step {grant : Nat → Bool} (hg : GrantOk grant) {u : Ubuf} {l : Bytes} (h : Holds 1 u l) {op : BufOp}
    (hop : op.Proper) :
    Faithful grant 1 (op.effect l) u.hint (max (max u.nAlloced u.hint) (2 * op.need l)) (op.need l) (bufStep grant u op) := by
  have mono : ∀ {l' cap cap' need need' h' h'' x}, cap ≤ cap' → need ≤ need' → h' = h'' → Faithful grant 1 l' h' cap need x →
      Faithful (α := UInt8) grant 1 l' h'' cap' need' x := by
    rintro l' cap cap' need need' h' h'' x hc hn rfl (⟨v, h1, h2, h3, h4⟩ | ⟨h1, h2⟩)
    · exact .inl ⟨v, h1, h2, h3, by omega⟩
    · exact .inr ⟨h1, fun hc => h2 ⟨hc.1, by omega⟩⟩
  have hch : ∀ c, (chop c l).length ≤ l.length := by
    intro c; unfold chop; split <;> simp
  cases op with
  | array op => exact C55_array_step hg (by omega) h hop
  | rstrip c =>
    obtain ⟨u', e, h1, h2, h3⟩ := Ubuf.rstrip_holds h c
    exact .inl ⟨u', e, h1, h2, by omega⟩
  | addCstr s =>
    obtain ⟨u', e, h1, h2, h3⟩ := Ubuf.rstrip_holds h 0
    have hc := hch 0
    have ex : bufStep grant u (.addCstr s) = Vec.append grant 1 s u' := by
      show Ubuf.addCstr grant s u = _; unfold Ubuf.addCstr; rw [e, Out.ok_bind]
    rw [ex]
    have ap := append_faithful (xs := s) hg (Nat.one_pos) h1
    refine mono ?_ ?_ h2 ap
    · simp only [BufOp.need]; omega
    · simp only [BufOp.need]; omega
  | addFmt s =>
    obtain ⟨u', e, h1, h2, h3⟩ := Ubuf.rstrip_holds h 0
    have hc := hch 0
    have h63 := h1.bytes
    have hle := h1.le
    have hsz := h1.size
    have hlen : s.length < 2 ^ 31 := by simpa [BufOp.Proper] using hop
    have e2 : (u'.n + s.length + 1) % sizeMod = u'.n + s.length + 1 := by unfold sizeMod; omega
    have fl := fill_faithful (k := u'.n + s.length + 1) hg (Nat.one_pos) h1 (xs := s) (ys := [0])
      (by simp only [List.length_cons, List.length_nil]; omega)
    have ex : bufStep grant u (.addFmt s) = (do
        let u ← u'.reserve grant 1 (u'.n + s.length + 1)
        let u ← u.poke (s ++ [0])
        u.advance s.length) := by
      show Ubuf.addFmt grant s u = _; unfold Ubuf.addFmt; rw [e, Out.ok_bind, if_pos hlen, e2]
    rw [ex]
    refine mono ?_ ?_ h2 fl
    · simp only [BufOp.need]; omega
    · simp only [BufOp.need]; omega
  | cterm =>
    have ap : Faithful grant 1 (l ++ [0]) u.hint (max (max u.nAlloced u.hint) (2 * (l.length + 1))) (l.length + 1)
        (Vec.append grant 1 [0] u) :=
      mono (by simp only [List.length_cons, List.length_nil]; omega) (by simp) rfl (append_faithful hg (by omega) h)
    simp only [bufStep, Ubuf.cterm, BufOp.effect, BufOp.need]
    have hsz := h.size
    cases hl : l.getLast? with
    | none =>
      have hn := List.getLast?_eq_none_iff.1 hl
      rw [if_neg (show ¬ (none : Option UInt8) = some 0 by simp), if_pos (show u.n = 0 by rw [hsz, hn]; rfl)]
      exact ap
    | some x =>
      have hn : u.n ≠ 0 := by
        intro h0
        rw [List.length_eq_zero_iff.1 (hsz.symm.trans h0)] at hl
        cases hl
      rw [if_neg hn, value_holds h, hsz, ← List.getLast?_eq_getElem?, hl]
      simp only [Out.ok_bind, Option.some.injEq]
      by_cases hx : x = 0
      · rw [if_pos hx, if_neg (show ¬ x ≠ 0 by simp [hx])]
        exact .inl ⟨u, rfl, h, rfl, by omega⟩
      · rw [if_neg hx, if_pos (show x ≠ 0 from hx)]
        exact ap

/-- C55, sequences of operations on a buffer just made. -/
theorem C55_buffer (hint : Nat) {grant : Nat → Bool} (hg : GrantOk grant) {ops : List BufOp} (hops : ∀ op ∈ ops, op.Proper) :
    let x := (do let u ← Vec.init grant 1 hint; steps' (bufStep grant) ops u)
    x = .fault .abort ∨ ∃ u, x = .ok u ∧ u.n = (ops.foldl BufOp.effect []).length ∧
      u.data = some (ops.foldl BufOp.effect []) := by
  obtain ⟨h, -, -, hi⟩ := init_faithful (α := UInt8) (grant := grant) (sz := 1) (by omega) (by omega) hint
  have key : ∀ (ops : List BufOp) {u : Ubuf} {l : Bytes}, (∀ op ∈ ops, op.Proper) → Holds 1 u l →
      steps' (bufStep grant) ops u = .fault .abort ∨
      ∃ u', steps' (bufStep grant) ops u = .ok u' ∧ Holds 1 u' (ops.foldl BufOp.effect l) := by
    intro ops
    induction ops with
    | nil => exact fun _ h => .inr ⟨_, rfl, h⟩
    | cons o os ih =>
      intro u l hp hu
      unfold steps'
      rcases C55_buffer_step hg hu (hp o List.mem_cons_self) with ⟨u', e, h1, -⟩ | ⟨e, -⟩
      · rw [e, Out.ok_bind]
        exact ih (fun op hop => hp op (List.mem_cons_of_mem _ hop)) h1
      · rw [e]; exact .inl rfl
  rcases hi with ⟨u, e, h1, -⟩ | ⟨e, -⟩
  · simp only [e, Out.ok_bind]
    rcases key ops hops h1 with h2 | ⟨u', h2, h3⟩
    · exact .inl h2
    · exact .inr ⟨u', h2, h3.size, h3.data⟩
  · simp only [e, Out.fault_bind]; exact .inl trivial

/-- C55, making: an array made or made anew for `hint` elements is empty and has room for that many, or for one. -/
theorem C55_make {α : Type} {grant : Nat → Bool} {sz : Nat} (hs : 0 < sz) (hz : sz ≤ 2 ^ 31) {hint : Nat} (hh : hint < 2 ^ 32)
    (old : Vec α) :
    old.reinit grant sz hint = Vec.init grant sz hint ∧
    ((∃ u : Vec α, Vec.init grant sz hint = .ok u ∧ Holds sz u [] ∧ u.nAlloced = max 1 hint ∧ u.hint = max 1 hint) ∨
      ((Vec.init grant sz hint : Out (Vec α)) = .fault .abort ∧ ¬ Generous grant)) := by
  have e : (if hint % 2 ^ 32 = 0 then 1 else hint % 2 ^ 32) = max 1 hint := by
    rw [Nat.mod_eq_of_lt hh]; split <;> omega
  have h1 : (Vec.init grant sz hint : Out (Vec α)) = (do
      let v ← myMalloc grant sz (max 1 hint * sz % sizeMod); .ok ⟨v, 0, 0, max 1 hint, max 1 hint⟩) := by
    unfold Vec.init; rw [e]
  have h2 : old.reinit grant sz hint = (do
      let v ← myMalloc grant sz (max 1 hint * sz % sizeMod); .ok ⟨v, 0, 0, max 1 hint, max 1 hint⟩) := by
    unfold Vec.reinit; rw [e]
  refine ⟨h2.trans h1.symm, ?_⟩
  rw [h1]
  have hb : max 1 hint * sz < 2 ^ 63 := by
    calc max 1 hint * sz ≤ max 1 hint * 2 ^ 31 := Nat.mul_le_mul_left _ hz
      _ < 2 ^ 63 := by omega
  rcases malloc_holds (α := α) (grant := grant) hs (by omega) hb with ⟨v, e, h⟩ | ⟨e, h⟩
  · simp only [e, Out.ok_bind]
    exact .inl ⟨_, rfl, h, rfl, rfl⟩
  · simp only [e, Out.fault_bind]
    exact .inr ⟨trivial, h⟩

/-- C55, one array behind another. -/
theorem C55_extend {α : Type} {grant : Nat → Bool} (hg : GrantOk grant) {sz : Nat} (hs : 0 < sz) {u other : Vec α} {l m : List α}
    (h : Holds sz u l) (hm : Holds sz other m) :
    Faithful grant sz (l ++ m) u.hint (max u.nAlloced (2 * (l.length + m.length))) (l.length + m.length)
      (Vec.extend grant sz other u) := by
  unfold Vec.extend
  rw [hm.data]
  simp only
  rw [if_pos hm.size.symm]
  exact append_faithful hg hs h

theorem growWhile_done {α : Type} {grant : Nat → Bool} {sz : Nat} {more : Vec α → Bool} {u : Vec α} (h : more u = false) :
    ∀ n, Vec.growWhile grant sz more n u = .ok u
  | 0 => by unfold Vec.growWhile; rw [h]; rfl
  | n + 1 => by unfold Vec.growWhile; rw [h]; rfl

/-- C55, buffers made empty or of a string: the storage for a string has room for its terminator. -/
theorem C55_buffers {grant : Nat → Bool} (hg : GrantOk grant) {s : Bytes} (hs : s.length + 1 < 2 ^ 32) :
    Faithful grant 1 [] 64 64 0 (Ubuf.new grant) ∧
    Faithful grant 1 s (s.length + 1) (2 * s.length + 1) s.length (Ubuf.dupCstr grant s) ∧
    ∀ u, Ubuf.dupCstr grant s = .ok u → s.length < u.nAlloced := by
  have mk : ∀ hint, hint < 2 ^ 32 → (∃ u : Ubuf, Vec.init grant 1 hint = .ok u ∧ Holds 1 u [] ∧ u.nAlloced = max 1 hint ∧
      u.hint = max 1 hint) ∨ ((Vec.init grant 1 hint : Out Ubuf) = .fault .abort ∧ ¬ Generous grant) :=
    fun hint hh => (C55_make (α := UInt8) (grant := grant) (sz := 1) (by omega) (by omega) hh ⟨[], 0, 0, 0, 0⟩).2
  refine ⟨?_, ?_⟩
  · rcases mk 64 (by omega) with ⟨u, e, h, h1, h2⟩ | ⟨e, h⟩
    · exact .inl ⟨u, e, h, by omega, by omega⟩
    · exact .inr ⟨e, fun hc => h hc.1⟩
  · unfold Ubuf.dupCstr
    rcases mk (s.length + 1) hs with ⟨u, e, h, h1, h2⟩ | ⟨e, h⟩
    · rw [e, Out.ok_bind]
      rcases append_faithful hg Nat.one_pos h (xs := s) with ⟨u', e', h', h3, h4⟩ | ⟨e', h'⟩
      · have hroom : Vec.reserve grant 1 s.length u = .ok u := by
          have hn : u.n = 0 := h.size
          have hle : ¬ s.length > (u.nAlloced + sizeMod - u.n) % sizeMod := by
            rw [hn, h1]
            unfold sizeMod
            omega
          unfold Vec.reserve
          apply growWhile_done
          exact decide_eq_false hle
        have hn : u'.nAlloced = u.nAlloced := by
          unfold Vec.append at e'
          rw [hroom, Out.ok_bind] at e'
          revert e'
          generalize Vec.store u.v u.n (s.map some) = x
          intro e'
          cases x with
          | ok v => cases e'; rfl
          | fail => cases e'
          | fault _ => cases e'
        refine ⟨.inl ⟨u', e', h', by omega, by omega⟩, ?_⟩
        intro v hv
        rw [e'] at hv
        cases hv
        omega
      · refine ⟨.inr ⟨e', fun hc => h' ⟨hc.1, Nat.le_trans (Nat.mul_le_mul_right 1 (Nat.mul_le_mul_left 2
          (show ([] : Bytes).length + s.length ≤ s.length by simp))) hc.2⟩⟩, ?_⟩
        intro v hv
        rw [e'] at hv
        cases hv
    · rw [e, Out.fault_bind]
      exact ⟨.inr ⟨rfl, fun hc => h hc.1⟩, fun v hv => by cases hv⟩

/-- C55, reading: an element that is there is returned, any other index aborts the process. -/
theorem C55_value {α : Type} {sz : Nat} {u : Vec α} {l : List α} (h : Holds sz u l) (i : Nat) :
    u.value i = match l[i]? with | some x => .ok x | none => .fault .abort := value_holds h i

/-- C55, handing out: the block handed out starts with the elements held, and their number is told. -/
theorem C55_detach {α : Type} {grant : Nat → Bool} {sz : Nat} (hs : 0 < sz) {u : Vec α} {l : List α} (h : Holds sz u l) :
    (∃ v u', u.detach grant sz = .ok ((v, l.length), u') ∧ v.take l.length = l.map some ∧ Holds sz u' []) ∨
    (u.detach grant sz = .fault .abort ∧ ¬ Generous grant) := by
  rcases detach_faithful (grant := grant) hs h with ⟨v, u', h1, h2, h3, -⟩ | h
  · exact .inl ⟨v, u', h1, h2, h3⟩
  · exact .inr h

/-- C55, strings: after `ubuf_cterm` (and so `ubuf_cstr`) the storage has a NUL in it, and the string up to the first one
is that of the bytes held. -/
theorem C55_cstr {grant : Nat → Bool} (hg : GrantOk grant) {u : Ubuf} {l : Bytes} (h : Holds 1 u l) :
    Ubuf.cterm grant u = .fault .abort ∨ ∃ u' r, Ubuf.cterm grant u = .ok u' ∧
      u'.v = (l.takeWhile (· != 0)).map some ++ some 0 :: r := by
  rcases C55_buffer_step hg h (op := .cterm) trivial with ⟨u', e, h1, -⟩ | ⟨e, -⟩
  · refine .inr ⟨u', ?_⟩
    have hv : ∃ rest, u'.v = ((BufOp.cterm).effect l).map some ++ rest :=
      ⟨u'.v.drop u'.n, by rw [← h1.vals, List.take_append_drop]⟩
    obtain ⟨rest, hv⟩ := hv
    have cut : ∀ m : Bytes, ∃ r, m ++ [0] = m.takeWhile (· != 0) ++ 0 :: r := by
      intro m
      induction m with
      | nil => exact ⟨[], rfl⟩
      | cons a m ih =>
        by_cases ha : a = 0
        · subst ha; exact ⟨m ++ [0], by simp⟩
        · obtain ⟨r, hr⟩ := ih
          exact ⟨r, by simp [ha, hr]⟩
    have tw : ∀ m : Bytes, (m ++ [0]).takeWhile (· != 0) = m.takeWhile (· != 0) := by
      intro m
      induction m with
      | nil => rfl
      | cons a m ih => simp only [List.cons_append, List.takeWhile_cons, ih]
    have : ∃ r, (BufOp.cterm).effect l = l.takeWhile (· != 0) ++ 0 :: r := by
      show ∃ r, (if l.getLast? = some 0 then l else l ++ [0]) = _
      split
      · next hl =>
        obtain ⟨m, rfl⟩ := List.getLast?_eq_some_iff.1 hl
        rw [tw]
        exact cut m
      · exact cut l
    obtain ⟨r, hr⟩ := this
    exact ⟨r.map some ++ rest, e, by rw [hv, hr]; simp⟩
  · exact .inl e

/-! ## Examples -/

/-- An allocator that serves what it can. -/
def exGrant (b : Nat) : Bool := decide (b < 2 ^ 63)

theorem exGrant_ok : GrantOk exGrant ∧ Generous exGrant :=
  ⟨fun b h => by simp only [exGrant, decide_eq_false_iff_not]; omega, fun b h => by simp only [exGrant, decide_eq_true_eq]; exact h⟩

/-- Twelve bytes in a buffer made for two, one of them by `ubuf_add_fmt`. -/
example :
    let ops : List BufOp := [.array (.add 97), .array (.append [98, 99, 100, 101, 102]), .cterm, .addCstr [103, 104],
      .addFmt [49, 50], .array (.fill 6 [51, 52, 53]), .rstrip 53, .array (.clip 11)]
    (∀ op ∈ ops, op.Proper) ∧ ops.foldl BufOp.effect [] = [97, 98, 99, 100, 101, 102, 103, 104, 49, 50, 51] ∧
    (match (do let u ← Vec.init exGrant 1 2; steps' (bufStep exGrant) ops u : Out Ubuf) with
      | .ok u => (u.data, u.n, u.nAlloced, u.p)
      | _ => (none, 0, 0, 0)) = (some [97, 98, 99, 100, 101, 102, 103, 104, 49, 50, 51], 11, 32, 11) := by
  refine ⟨?_, by decide +kernel, by decide +kernel⟩
  intro op hop
  simp only [List.mem_cons, List.not_mem_nil, or_false] at hop
  rcases hop with rfl | rfl | rfl | rfl | rfl | rfl | rfl | rfl <;> simp [BufOp.Proper, ArrayOp.Proper]

/-- `ubuf_dup_cstr` of `ab`, behind a buffer with `c` in it that was made anew. -/
example :
    GrantOk exGrant ∧ (match (do
        let u ← Vec.init exGrant 1 3
        let u ← Vec.reinit exGrant 1 0 u
        let u ← Vec.add exGrant 1 99 u
        let s ← Ubuf.dupCstr exGrant [97, 98]
        let r ← Vec.extend exGrant 1 s u
        .ok (s, r) : Out (Ubuf × Ubuf)) with
      | .ok (s, r) => (s.data, s.nAlloced, r.data, r.nAlloced)
      | _ => (none, 0, none, 0)) = (some [97, 98], 3, some [99, 97, 98], 4) :=
  ⟨exGrant_ok.1, by decide +kernel⟩

end Verif.Props
