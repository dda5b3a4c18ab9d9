import Verif.Model.MergeMem
import Verif.Lemmas.Heap
import Verif.Lemmas.Varint

/-! Lemmas for C66: the merge function in memory does what the merge function does. -/

namespace Verif

/-! ## Decoded numbers are within their types -/

private theorem sat_bind {α β : Type} {x : Out α} {f : α → Out β} {P : α → Prop} {Q : β → Prop} (hx : ∀ a, x = .ok a → P a)
    (hf : ∀ a, P a → ∀ b, f a = .ok b → Q b) : ∀ b, (x >>= f) = .ok b → Q b := by
  intro b hb
  cases x with
  | ok a => exact hf a (hx a rfl) b hb
  | fail => cases hb
  | fault _ => cases hb

private theorem sat_any {α β : Type} {x : Out α} {f : α → Out β} {Q : β → Prop}
    (hf : ∀ a, ∀ b, f a = .ok b → Q b) : ∀ b, (x >>= f) = .ok b → Q b :=
  sat_bind (P := fun _ => True) (fun _ _ => trivial) fun a _ => hf a

private theorem low7_lt (data : Bytes) (i : Nat) : ∀ v, low7 data i = .ok v → v < 2 ^ 7 := by
  unfold low7
  refine sat_any fun b v h => ?_
  cases h
  exact Nat.and_lt_two_pow _ (by decide)

private theorem or_shift_lt {a b k : Nat} (ha : a < 2 ^ k) (hb : b < 2 ^ 7) : a ||| b <<< k < 2 ^ (k + 7) := by
  refine Nat.or_lt_two_pow (Nat.lt_of_lt_of_le ha (Nat.pow_le_pow_right (by decide) (by omega))) ?_
  rw [Nat.shiftLeft_eq, Nat.pow_add, Nat.mul_comm]
  exact Nat.mul_lt_mul_of_pos_left hb (Nat.two_pow_pos k)

private theorem le32 {a k : Nat} (ha : a < 2 ^ k) (hk : k ≤ 32) : a < 2 ^ 32 :=
  Nat.lt_of_lt_of_le ha (Nat.pow_le_pow_right (by decide) hk)

theorem decode32_lt (data : Bytes) : ∀ r, varintDecode32 data = .ok r → r.2 < 2 ^ 32 := by
  unfold varintDecode32
  refine sat_any fun len => sat_bind (low7_lt _ _) fun v0 h0 r hr => ?_
  split at hr
  · revert r
    refine sat_bind (low7_lt _ _) fun v1 h1 r hr => ?_
    have h01 : v0 ||| v1 <<< 7 < 2 ^ 14 := or_shift_lt h0 h1
    split at hr
    · revert r
      refine sat_bind (low7_lt _ _) fun v2 h2 r hr => ?_
      have h02 : v0 ||| v1 <<< 7 ||| v2 <<< 14 < 2 ^ 21 := or_shift_lt h01 h2
      split at hr
      · revert r
        refine sat_bind (low7_lt _ _) fun v3 h3 r hr => ?_
        have h03 : v0 ||| v1 <<< 7 ||| v2 <<< 14 ||| v3 <<< 21 < 2 ^ 28 := or_shift_lt h02 h3
        split at hr
        · revert r
          refine sat_any fun b r hr => ?_
          cases hr
          exact Nat.mod_lt _ (Nat.two_pow_pos 32)
        · cases hr
          exact le32 h03 (by decide)
      · cases hr
        exact le32 h02 (by decide)
    · cases hr
      exact le32 h01 (by decide)
  · cases hr
    exact le32 h0 (by decide)

private theorem decode64Loop_lt (data : Bytes) : ∀ k i val, val < 2 ^ 64 → ∀ r, decode64Loop data k i val = .ok r → r < 2 ^ 64
  | 0, i, val, h => by
    intro r hr
    cases hr
    exact h
  | k + 1, i, val, _ => by
    unfold decode64Loop
    exact sat_any fun b => decode64Loop_lt data k (i + 1) _ (Nat.mod_lt _ (Nat.two_pow_pos 64))

theorem decode64_lt (data : Bytes) : ∀ r, varintDecode64 data = .ok r → r.2 < 2 ^ 64 := by
  unfold varintDecode64
  refine sat_any fun len r hr => ?_
  split at hr
  · exact Nat.lt_of_lt_of_le (decode32_lt _ _ hr) (Nat.pow_le_pow_right (by decide) (by decide))
  · revert r
    refine sat_bind (low7_lt _ _) fun v0 h0 => sat_bind (low7_lt _ _) fun v1 h1 => sat_bind (low7_lt _ _) fun v2 h2 =>
      sat_bind (low7_lt _ _) fun v3 h3 => sat_bind (decode64Loop_lt _ _ _ _ ?_) fun v hv r hr => ?_
    · have h03 : v0 ||| v1 <<< 7 ||| v2 <<< 14 ||| v3 <<< 21 < 2 ^ 28 := or_shift_lt (or_shift_lt (or_shift_lt h0 h1) h2) h3
      exact Nat.lt_of_lt_of_le h03 (Nat.pow_le_pow_right (by decide) (by decide))
    · cases hr
      exact hv

theorem unpack3_lt (buf : Bytes) : ∀ r, tripletUnpack buf = .ok r → r.1 < 2 ^ 64 ∧ r.2.1 < 2 ^ 64 ∧ r.2.2 < 2 ^ 64 := by
  unfold tripletUnpack
  refine sat_bind (decode64_lt _) fun a ha => sat_bind (decode64_lt _) fun b hb => sat_bind (decode64_lt _) fun c hc r hr => ?_
  dsimp only at hr
  split at hr
  · cases hr
    exact ⟨ha, hb, hc⟩
  · cases hr

theorem unpack2_lt (buf : Bytes) : ∀ r, pairUnpack buf = .ok r → r.1 < 2 ^ 64 ∧ r.2 < 2 ^ 64 := by
  unfold pairUnpack
  refine sat_bind (decode64_lt _) fun a ha => sat_bind (decode64_lt _) fun b hb r hr => ?_
  dsimp only at hr
  split at hr
  · cases hr
    exact ⟨ha, hb⟩
  · cases hr

private theorem sat_orAbort {α : Type} {x : Out α} {P : α → Prop} (h : ∀ a, x = .ok a → P a) : ∀ a, x.orAbort = .ok a → P a := by
  intro a ha
  cases x with
  | ok b => exact h a ha
  | fail => cases ha
  | fault _ => cases ha

/-! ## Writing into a new block -/

private theorem prefix_write {r c b : Bytes} (hr : r <+: c) (hl : r.length + b.length ≤ c.length) :
    ∃ c', bufWrite c r.length b = .ok c' ∧ r ++ b <+: c' ∧ c'.length = c.length := by
  obtain ⟨t, rfl⟩ := hr
  refine ⟨r ++ b ++ t.drop b.length, ?_, List.prefix_append _ _, ?_⟩
  · unfold bufWrite
    rw [if_pos hl, List.take_left, List.drop_append]
    congr 2
    rw [List.drop_eq_nil_of_le (by omega), List.nil_append]
    congr 1
    omega
  · simp only [List.length_append, List.length_drop] at hl ⊢
    omega

private theorem write_new {n p : Nat} {L : List (Nat × Bytes)} (hp : p ∉ L.map Prod.fst) {r c b : Bytes} (hr : r <+: c)
    (hl : r.length + b.length ≤ c.length) :
    ∃ c', mWrite p r.length b ⟨n, (p, c) :: L⟩ = .ok ((), ⟨n, (p, c') :: L⟩) ∧ r ++ b <+: c' ∧ c'.length = c.length := by
  obtain ⟨c', e, hc, hlen⟩ := prefix_write hr hl
  refine ⟨c', ?_, hc, hlen⟩
  have hload : mLoad p ⟨n, (p, c) :: L⟩ = .ok (c, ⟨n, (p, c) :: L⟩) := by simp [mLoad]
  have hstore : mStore p c' ⟨n, (p, c) :: L⟩ = .ok ((), ⟨n, (p, c') :: L⟩) := by
    unfold mStore
    rw [if_pos (by simp)]
    simp only [List.map_cons, if_pos]
    congr 4
    refine (List.map_congr_left fun x hx => ?_).trans (List.map_id L)
    rw [if_neg]
    · rfl
    · rintro rfl
      exact hp (List.mem_map.2 ⟨x, hx, rfl⟩)
  unfold mWrite
  show (mLoad p ⟨n, (p, c) :: L⟩ >>= fun x => (mPure (bufWrite x.1 r.length b) >>= fun c => mStore p c) x.2) = _
  rw [hload]
  show (mPure (bufWrite c r.length b) ⟨n, (p, c) :: L⟩ >>= fun x => mStore p x.1 x.2) = _
  rw [e]
  exact hstore

/-- `x` answers with a new block that begins with the bytes of `o`, and their number; with NULL, if `o` fails; and breaks
down as `o` does. -/
def GivesBlock (x : Mem Merged) (o : Out Bytes) : Prop :=
  ∀ h, h.Sane → match o with
    | .ok r => ∃ b, x h = .ok ((some h.next, some r.length), ⟨h.next + 1, (h.next, b) :: h.live⟩) ∧ r <+: b
    | .fail => x h = .ok ((none, none), h)
    | .fault f => x h = .fault f

private theorem fresh_next {h : Heap} (hs : h.Sane) : h.next ∉ h.live.map Prod.fst := by
  intro hm
  obtain ⟨b, hb, e⟩ := List.mem_map.1 hm
  have := hs.below b hb
  omega

private theorem gives_bind {α : Type} {a : Out α} {f : α → Mem Merged} {g : α → Out Bytes} (hn : a ≠ .fail)
    (hf : ∀ v, a = .ok v → GivesBlock (f v) (g v)) : GivesBlock (mPure a >>= f) (a >>= g) := by
  intro h hs
  cases a with
  | ok v => exact hf v rfl h hs
  | fail => exact absurd rfl hn
  | fault e => rfl

/-- A new block is filled by `w`, which gives its length. -/
private theorem gives_alloc {c r : Bytes} {w : Nat → Mem Nat} (hw : ∀ n p L, p ∉ L.map Prod.fst →
      ∃ c', w p ⟨n, (p, c) :: L⟩ = .ok (r.length, ⟨n, (p, c') :: L⟩) ∧ r <+: c') :
    GivesBlock (do let p ← mAlloc c; let n ← w p; pure (some p, some n)) (.ok r) := by
  intro h hs
  obtain ⟨c', e, hc⟩ := hw (h.next + 1) h.next h.live (fresh_next hs)
  refine ⟨c', ?_, hc⟩
  show (w h.next ⟨h.next + 1, (h.next, c) :: h.live⟩ >>= fun x => (pure (some h.next, some x.1) : Mem Merged) x.2) = _
  rw [e]
  rfl

/-- A new block is filled by `w`. -/
private theorem gives_fill {c r : Bytes} {w : Nat → Mem Unit} (hw : ∀ n p L, p ∉ L.map Prod.fst →
      ∃ c', w p ⟨n, (p, c) :: L⟩ = .ok ((), ⟨n, (p, c') :: L⟩) ∧ r <+: c') :
    GivesBlock (do let p ← mAlloc c; w p; pure (some p, some r.length)) (.ok r) := by
  intro h hs
  obtain ⟨c', e, hc⟩ := hw (h.next + 1) h.next h.live (fresh_next hs)
  refine ⟨c', ?_, hc⟩
  show (w h.next ⟨h.next + 1, (h.next, c) :: h.live⟩ >>= fun x => (pure (some h.next, some r.length) : Mem Merged) x.2) = _
  rw [e]
  rfl

private theorem malloc_pos (X : Malloc) {n : Nat} (hn : n ≠ 0 ∨ X.zeroNull = false) :
    myMallocMem X n = mAlloc ((List.range n).map X.fill) := by
  unfold myMallocMem
  rw [if_neg]
  rcases hn with h | h
  · exact fun hx => h hx.1
  · rw [h]
    exact fun hx => Bool.noConfusion hx.2

private theorem calloc_pos (X : Malloc) {n : Nat} (hn : n ≠ 0) : myCallocMem X n = mAlloc (List.replicate n 0) := by
  unfold myCallocMem
  rw [if_neg fun hx => hn hx.1]

private theorem write_bind {α : Type} {p off n : Nat} {b c c' : Bytes} {L : List (Nat × Bytes)} {k : Mem α}
    (hx : mWrite p off b ⟨n, (p, c) :: L⟩ = .ok ((), ⟨n, (p, c') :: L⟩)) :
    (do mWrite p off b; k) ⟨n, (p, c) :: L⟩ = k ⟨n, (p, c') :: L⟩ := by
  show (mWrite p off b ⟨n, (p, c) :: L⟩ >>= fun x => k x.2) = _
  rw [hx]
  rfl

private theorem pack3_new {v1 v2 v3 : Nat} (h1 : v1 < 2 ^ 64) (h2 : v2 < 2 ^ 64) (h3 : v3 < 2 ^ 64) {c : Bytes} (hc : c.length = 32) :
    ∀ n p (L : List (Nat × Bytes)), p ∉ L.map Prod.fst →
      ∃ c', tripletPackMem p v1 v2 v3 ⟨n, (p, c) :: L⟩ = .ok ((tripletPack v1 v2 v3).length, ⟨n, (p, c') :: L⟩) ∧
        tripletPack v1 v2 v3 <+: c' := by
  intro n p L hp
  have l1 : (varintEncode64 v1).length ≤ 10 := by rw [encode64_eq_leb]; exact leb_length_le_10 h1
  have l2 : (varintEncode64 v2).length ≤ 10 := by rw [encode64_eq_leb]; exact leb_length_le_10 h2
  have l3 : (varintEncode64 v3).length ≤ 10 := by rw [encode64_eq_leb]; exact leb_length_le_10 h3
  obtain ⟨c1, e1, p1, k1⟩ := write_new (n := n) hp (r := []) (c := c) (b := varintEncode64 v1) List.nil_prefix (by simp; omega)
  rw [List.nil_append] at p1
  obtain ⟨c2, e2, p2, k2⟩ := write_new (n := n) hp (b := varintEncode64 v2) p1 (by omega)
  obtain ⟨c3, e3, p3, k3⟩ := write_new (n := n) hp (b := varintEncode64 v3) p2 (by rw [List.length_append]; omega)
  rw [List.length_append] at e3
  refine ⟨c3, ?_, p3⟩
  unfold tripletPackMem
  dsimp only
  rw [write_bind (off := 0) e1, write_bind e2, write_bind e3]
  unfold tripletPack
  rw [List.length_append, List.length_append]
  rfl

private theorem pack2_new {v1 v2 : Nat} (h1 : v1 < 2 ^ 64) (h2 : v2 < 2 ^ 64) {c : Bytes} (hc : c.length = 32) :
    ∀ n p (L : List (Nat × Bytes)), p ∉ L.map Prod.fst →
      ∃ c', pairPackMem p v1 v2 ⟨n, (p, c) :: L⟩ = .ok ((pairPack v1 v2).length, ⟨n, (p, c') :: L⟩) ∧ pairPack v1 v2 <+: c' := by
  intro n p L hp
  have l1 : (varintEncode64 v1).length ≤ 10 := by rw [encode64_eq_leb]; exact leb_length_le_10 h1
  have l2 : (varintEncode64 v2).length ≤ 10 := by rw [encode64_eq_leb]; exact leb_length_le_10 h2
  obtain ⟨c1, e1, p1, k1⟩ := write_new (n := n) hp (r := []) (c := c) (b := varintEncode64 v1) List.nil_prefix (by simp; omega)
  rw [List.nil_append] at p1
  obtain ⟨c2, e2, p2, k2⟩ := write_new (n := n) hp (b := varintEncode64 v2) p1 (by omega)
  refine ⟨c2, ?_, p2⟩
  unfold pairPackMem
  dsimp only
  rw [write_bind (off := 0) e1, write_bind e2]
  unfold pairPack
  rw [List.length_append]
  rfl

private theorem orAbort_ne {α : Type} (x : Out α) : x.orAbort ≠ .fail := by
  cases x <;> exact nofun

private theorem min_lt {a b m : Nat} (ha : a < m) (hb : b < m) : (if a < b then a else b) < m := by
  split <;> assumption

private theorem max_lt' {a b m : Nat} (ha : a < m) (hb : b < m) : (if a > b then a else b) < m := by
  split <;> assumption

theorem gives_triplets (X : Malloc) (v0 v1 : Bytes) : GivesBlock (mergeTripletsMem X v0 v1) (mergeTriplets v0 v1) := by
  unfold mergeTripletsMem mergeTriplets
  refine gives_bind (by unfold Out.assert; split <;> exact nofun) fun _ _ => ?_
  refine gives_bind (orAbort_ne _) fun x hx => ?_
  refine gives_bind (orAbort_ne _) fun y hy => ?_
  obtain ⟨a1, a2, a3⟩ := sat_orAbort (unpack3_lt v0) x hx
  obtain ⟨b1, b2, b3⟩ := sat_orAbort (unpack3_lt v1) y hy
  rw [malloc_pos X (.inl (by decide))]
  exact gives_alloc (pack3_new (min_lt a1 b1) (max_lt' a2 b2) (Nat.mod_lt _ (Nat.two_pow_pos 64)) (by simp))

theorem gives_timeRange (X : Malloc) (v0 v1 : Bytes) : GivesBlock (mergeTimeRangeMem X v0 v1) (mergeTimeRange v0 v1) := by
  unfold mergeTimeRangeMem mergeTimeRange
  split
  · rw [malloc_pos X (.inl (by decide))]
    exact gives_alloc (r := []) (w := fun _ => pure 0) fun n p L _ => ⟨_, rfl, List.nil_prefix⟩
  · refine gives_bind (orAbort_ne _) fun x hx => ?_
    refine gives_bind (orAbort_ne _) fun y hy => ?_
    obtain ⟨a1, a2⟩ := sat_orAbort (unpack2_lt v0) x hx
    obtain ⟨b1, b2⟩ := sat_orAbort (unpack2_lt v1) y hy
    rw [malloc_pos X (.inl (by decide))]
    exact gives_alloc (pack2_new (min_lt a1 b1) (max_lt' a2 b2) (by simp))

theorem gives_empty (X : Malloc) : GivesBlock (mergeEmptyMem X) (.ok []) := by
  unfold mergeEmptyMem
  rw [calloc_pos X (by decide)]
  exact gives_alloc (r := []) (w := fun _ => pure 0) fun n p L _ => ⟨_, rfl, List.nil_prefix⟩

private theorem write_all {r c : Bytes} (hl : r.length ≤ c.length) : ∀ n p (L : List (Nat × Bytes)), p ∉ L.map Prod.fst →
    ∃ c', mWrite p 0 r ⟨n, (p, c) :: L⟩ = .ok ((), ⟨n, (p, c') :: L⟩) ∧ r <+: c' := by
  intro n p L hp
  obtain ⟨c1, e1, p1, k1⟩ := write_new (n := n) hp (r := []) (c := c) (b := r) List.nil_prefix (by simpa using hl)
  exact ⟨c1, e1, p1⟩

private theorem nf_bind {α β : Type} {x : Out α} {f : α → Out β} (hx : x ≠ .fail) (hf : ∀ a, f a ≠ .fail) : (x >>= f) ≠ .fail := by
  cases x with
  | ok a => exact hf a
  | fail => exact absurd rfl hx
  | fault _ => exact nofun

private theorem nf_loop : ∀ n b, lengthPackedLoop n b ≠ .fail
  | 0, _ => nofun
  | _ + 1, [] => nofun
  | n + 1, b :: bs => by
    unfold lengthPackedLoop
    split
    · exact nofun
    · refine nf_bind (nf_loop n bs) fun a => ?_
      split <;> exact nofun

private theorem nf_byteAt (b : Bytes) (i : Nat) : byteAt b i ≠ .fail := by
  unfold byteAt
  split <;> exact nofun

private theorem nf_low7 (b : Bytes) (i : Nat) : low7 b i ≠ .fail := nf_bind (nf_byteAt _ _) fun _ => nofun

theorem decode32_ne_fail (b : Bytes) : varintDecode32 b ≠ .fail := by
  unfold varintDecode32 varintLengthPacked
  refine nf_bind (nf_bind (nf_loop _ _) fun a => by split <;> exact nofun) fun len => nf_bind (nf_low7 _ _) fun _ => ?_
  split
  · refine nf_bind (nf_low7 _ _) fun _ => ?_
    split
    · refine nf_bind (nf_low7 _ _) fun _ => ?_
      split
      · refine nf_bind (nf_low7 _ _) fun _ => ?_
        split
        · exact nf_bind (nf_byteAt _ _) fun _ => nofun
        · exact nofun
      · exact nofun
    · exact nofun
  · exact nofun

theorem gives_version (X : Malloc) (vt : UInt8) (v0 v1 : Bytes) :
    GivesBlock (mergeVersionMem X vt v0 v1) (mergeVersion vt v0 v1) := by
  unfold mergeVersionMem mergeVersion
  split
  · exact gives_empty X
  · split
    · have ha : ∀ (p : Prop) [Decidable p], Out.assert p ≠ .fail := by
        intro p _
        unfold Out.assert
        split <;> exact nofun
      refine gives_bind (decode32_ne_fail _) fun x hx => gives_bind (ha _) fun _ _ => gives_bind (decode32_ne_fail _) fun y hy => gives_bind (ha _) fun _ _ => ?_
      have hv := min_lt (decode32_lt _ _ hx) (decode32_lt _ _ hy)
      dsimp only
      generalize (if x.2 < y.2 then x.2 else y.2) = v at hv
      have hlen : (varintEncode32 v).length = varintLength v := by rw [encode32_eq_leb hv, leb_length]
      rw [calloc_pos X (by rw [← leb_length]; exact Nat.ne_of_gt (leb_length_pos v)), ← hlen]
      exact gives_fill (write_all (Nat.le_of_eq List.length_replicate.symm))
    · exact gives_empty X

/-! ## Type sets -/

/-- The buffers hold what the writer has produced. -/
structure BmHolds (s : BmState) (b : BmBuffers) : Prop where
  bitmap : b.bitmap = s.bitmap
  window : b.window = s.window
  bitmapLen : b.bitmapLen = s.bitmapLen
  size : s.bitmap.length = 32
  short : s.bitmapLen ≤ 32
  data : s.result <+: b.data
  room : b.data.length = 8192
  index : b.index = s.result.length

private theorem holds_start (X : Malloc) : BmHolds .init (.start X) :=
  ⟨rfl, rfl, rfl, List.length_replicate, by decide, List.nil_prefix, by simp [BmBuffers.start], rfl⟩

/-- `y` does what `x` does, with buffers. -/
private def Bm (x : Out BmState) (y : Out BmBuffers) : Prop :=
  match x with
  | .ok s => ∃ b, y = .ok b ∧ BmHolds s b
  | .fail => False
  | .fault f => y = .fault f

private theorem Bm.bind {x : Out BmState} {y : Out BmBuffers} {f : BmState → Out BmState} {g : BmBuffers → Out BmBuffers}
    (h : Bm x y) (hf : ∀ s b, BmHolds s b → Bm (f s) (g b)) : Bm (x >>= f) (y >>= g) := by
  cases x with
  | ok s =>
    obtain ⟨b, rfl, hb⟩ := h
    exact hf s b hb
  | fail => exact h.elim
  | fault e =>
    have : y = .fault e := h
    rw [this]
    rfl

private theorem bm_flush {s : BmState} {b : BmBuffers} (h : BmHolds s b) : Bm (bmFlush s) (bmFlushBuf b) := by
  obtain ⟨bitmap, window, len, data, index⟩ := b
  obtain ⟨h1, h2, h3, h4, h5, h6, h7, h8⟩ := h
  dsimp only at h1 h2 h3 h6 h7 h8
  subst h1 h2 h3 h8
  unfold bmFlush bmFlushBuf
  dsimp only
  split
  · split
    · next hlt =>
      have hb : bmBound = 1024 := rfl
      rw [hb] at hlt
      obtain ⟨c1, e1, p1, k1⟩ := prefix_write (b := [UInt8.ofNat s.window]) h6 (by simp; omega)
      obtain ⟨c2, e2, p2, k2⟩ := prefix_write (b := [UInt8.ofNat s.bitmapLen]) p1 (by simp; omega)
      obtain ⟨c3, e3, p3, k3⟩ := prefix_write (b := s.bitmap.take s.bitmapLen) p2 (by simp; omega)
      simp only [List.length_append, List.length_cons, List.length_nil, Nat.zero_add] at e2 e3
      rw [show s.result.length + 1 + 1 = s.result.length + 2 from rfl] at e3
      rw [e1, Out.ok_bind, e2, Out.ok_bind, if_pos (by omega), Out.ok_bind, e3]
      refine ⟨_, rfl, rfl, rfl, rfl, h4, Nat.zero_le _, ?_, k3.trans (k2.trans (k1.trans h7)), ?_⟩
      · simpa using p3
      · simp; omega
    · rfl
  · exact ⟨_, rfl, rfl, rfl, rfl, h4, h5, h6, h7, rfl⟩

private theorem write_modify {c : Bytes} {i : Nat} (hi : i < c.length) (f : UInt8 → UInt8) :
    (do let old ← byteAt c i; bufWrite c i [f old]) = .ok (c.modify i f) := by
  rw [byteAt_lt hi, Out.ok_bind]
  unfold bufWrite
  rw [if_pos (by simp; omega), List.modify_eq_take_cons_drop hi]
  simp

/-- The second half of an iteration. -/
private theorem bm_set {s : BmState} {b : BmBuffers} (h : BmHolds s b) (t : Nat) :
    Bm (.ok { s with bitmap := s.bitmap.modify (t % 256 / 8) fun b => b ||| UInt8.ofNat (0x80 >>> (t % 256 % 8)),
                     bitmapLen := 1 + t % 256 / 8 })
      (do
        let old ← byteAt b.bitmap (t % 256 / 8)
        let bitmap ← bufWrite b.bitmap (t % 256 / 8) [old ||| UInt8.ofNat (0x80 >>> (t % 256 % 8))]
        .ok { b with bitmap := bitmap, bitmapLen := 1 + t % 256 / 8 }) := by
  have hi : t % 256 / 8 < s.bitmap.length := by rw [h.size]; omega
  have := write_modify hi fun b => b ||| UInt8.ofNat (0x80 >>> (t % 256 % 8))
  rw [h.bitmap]
  rw [byteAt_lt hi, Out.ok_bind] at this ⊢
  rw [this, Out.ok_bind]
  exact ⟨_, rfl, rfl, h.window, rfl, (List.length_modify _ _ _).trans h.size, by dsimp only; omega, h.data, h.room, h.index⟩

private theorem bm_step {s : BmState} {b : BmBuffers} (h : BmHolds s b) (t : Nat) : Bm (bmStep s t) (bmStepBuf b t) := by
  unfold bmStep bmStepBuf
  dsimp only
  rw [h.window]
  split
  · refine (bm_flush h).bind fun s b h => bm_set (s := { s with bitmap := List.replicate 32 0, window := t / 256 }) (b :=
      { b with bitmap := List.replicate 32 0, window := t / 256 })
      ⟨rfl, rfl, h.bitmapLen, List.length_replicate, h.short, h.data, h.room, h.index⟩ t
  · exact bm_set h t

private theorem bm_loop : ∀ (ts : List Nat) {s : BmState} {b : BmBuffers}, BmHolds s b → Bm (bmLoop s ts) (bmLoopBuf b ts)
  | [], _, _, h => ⟨_, rfl, h⟩
  | t :: ts, _, _, h => (bm_step h t).bind fun _ _ h => bm_loop ts h

theorem gives_bmWrite (X : Malloc) (ts : List Nat) (hX : X.zeroNull = false ∨ bmWrite ts ≠ .ok []) :
    GivesBlock (bmWriteMem X ts) (bmWrite ts) := by
  have hb : Bm (bmLoop .init ts >>= bmFlush) (bmLoopBuf (.start X) ts >>= bmFlushBuf) :=
    (bm_loop ts (holds_start X)).bind fun _ _ h => bm_flush h
  have hw : bmWrite ts = (bmLoop .init ts >>= bmFlush) >>= fun s => .ok s.result := by
    unfold bmWrite
    cases bmLoop .init ts <;> rfl
  rw [hw] at hX ⊢
  unfold bmWriteMem
  revert hb hX
  generalize (bmLoop .init ts >>= bmFlush) = x
  generalize (bmLoopBuf (.start X) ts >>= bmFlushBuf) = y
  intro hX hb
  cases x with
  | ok s =>
    obtain ⟨b, rfl, h⟩ := hb
    show GivesBlock (do
      let p ← myMallocMem X b.index
      mWrite p 0 (b.data.take b.index)
      pure (some p, some b.index)) (.ok s.result)
    have ht : b.data.take b.index = s.result := by
      rw [h.index]
      exact (List.prefix_iff_eq_take.1 h.data).symm
    rw [ht, h.index, malloc_pos]
    · exact gives_fill (write_all (Nat.le_of_eq (by simp)))
    · rcases hX with h | h
      · exact .inr h
      · refine .inl fun e => h ?_
        show Out.ok s.result = .ok []
        rw [List.length_eq_zero_iff.1 e]
  | fail => exact hb.elim
  | fault e =>
    have : y = .fault e := hb
    rw [this]
    intro h hs
    rfl

private theorem gives_none : GivesBlock (pure (none, none)) .fail := fun _ _ => rfl

private theorem gives_sets (X : Malloc) (v0 v1 : Bytes)
    (hX : X.zeroNull = false ∨ (do
      let ts1 ← Out.ofOption (unionUnpack v0)
      let ts2 ← Out.ofOption (unionUnpack v1)
      bmWrite (sortedMergeDedup maxRrtypes ts1 ts2)) ≠ .ok []) :
    GivesBlock (match unionUnpack v0 with
      | none => pure (none, none)
      | some ts1 =>
        match unionUnpack v1 with
        | none => pure (none, none)
        | some ts2 => bmWriteMem X (sortedMergeDedup maxRrtypes ts1 ts2))
    (do
      let ts1 ← Out.ofOption (unionUnpack v0)
      let ts2 ← Out.ofOption (unionUnpack v1)
      bmWrite (sortedMergeDedup maxRrtypes ts1 ts2)) := by
  cases hu : unionUnpack v0 with
  | none => exact gives_none
  | some ts1 =>
    cases hv : unionUnpack v1 with
    | none => exact gives_none
    | some ts2 =>
      rw [hu, hv] at hX
      exact gives_bmWrite X _ hX

theorem gives_bitmaps (X : Malloc) (v0 v1 : Bytes)
    (hX : X.zeroNull = false ∨ v0 = [] ∨ v1 = [] ∨ mergeBitmaps v0 v1 ≠ .ok []) :
    GivesBlock (mergeBitmapsMem X v0 v1) (mergeBitmaps v0 v1) := by
  revert hX
  unfold mergeBitmapsMem mergeBitmaps
  split
  · intro _
    rw [malloc_pos X (.inl (by decide))]
    refine gives_fill (r := []) fun n p L hp => ?_
    obtain ⟨c1, e1, p1, k1⟩ := write_new (n := n) hp (r := []) (c := (List.range 1).map X.fill) (b := [0]) List.nil_prefix (by simp)
    exact ⟨c1, e1, List.nil_prefix⟩
  · next hne =>
    intro hX
    have hX : X.zeroNull = false ∨ _ := hX.imp_right fun h => (h.resolve_left fun e => hne (.inl (by rw [e]; rfl))).resolve_left
      fun e => hne (.inr (by rw [e]; rfl))
    revert hX
    split
    · intro _
      rw [malloc_pos X (.inl fun e => hne (.inl e))]
      exact gives_fill (write_all (Nat.le_of_eq (by simp)))
    · rcases v0 with _ | ⟨a, _ | ⟨b, _ | ⟨c, t⟩⟩⟩ <;> rcases v1 with _ | ⟨a', _ | ⟨b', _ | ⟨c', t'⟩⟩⟩ <;>
        first | exact fun hX => gives_sets X _ _ hX | exact fun hX => gives_bmWrite X _ hX

theorem gives_merge (X : Malloc) (key v0 v1 : Bytes)
    (hX : X.zeroNull = false ∨ v0 = [] ∨ v1 = [] ∨ (key.head? ≠ some etRrsetNameFwd ∧ key.head? ≠ some etRdataNameRev) ∨
      mergeFunc key v0 v1 ≠ .ok []) :
    GivesBlock (mergeFuncMem X key v0 v1) (mergeFunc key v0 v1) := by
  revert hX
  unfold mergeFuncMem mergeFunc
  cases key with
  | nil => exact fun _ => gives_empty X
  | cons t ks =>
    dsimp only
    split
    · exact fun _ => gives_triplets X v0 v1
    · split
      · next ht =>
        intro hX
        refine gives_bitmaps X v0 v1 ?_
        rcases hX with h | h | h | ⟨h1, h2⟩ | h
        · exact .inl h
        · exact .inr (.inl h)
        · exact .inr (.inr (.inl h))
        · rcases ht with rfl | rfl
          · exact absurd rfl h1
          · exact absurd rfl h2
        · exact .inr (.inr (.inr h))
      · intro _
        split
        · exact gives_timeRange X v0 v1
        · rcases ks with _ | ⟨vt, _ | ⟨_, _⟩⟩
          · exact gives_empty X
          · dsimp only
            split
            · exact gives_version X _ v0 v1
            · exact gives_empty X
          · exact gives_empty X

/-! ## Where `malloc(0)` is NULL -/

theorem bmWriteMem_zero (X : Malloc) (ts : List Nat) (hX : X.zeroNull = true) (ht : bmWrite ts = .ok []) (h : Heap) :
    bmWriteMem X ts h = .fault .abort := by
  have hb : Bm (bmLoop .init ts >>= bmFlush) (bmLoopBuf (.start X) ts >>= bmFlushBuf) :=
    (bm_loop ts (holds_start X)).bind fun _ _ h => bm_flush h
  have hw : bmWrite ts = (bmLoop .init ts >>= bmFlush) >>= fun s => .ok s.result := by
    unfold bmWrite
    cases bmLoop .init ts <;> rfl
  rw [hw] at ht
  unfold bmWriteMem
  revert hb ht
  generalize (bmLoop .init ts >>= bmFlush) = x
  generalize (bmLoopBuf (.start X) ts >>= bmFlushBuf) = y
  intro ht hb
  cases x with
  | ok s =>
    obtain ⟨b, rfl, hh⟩ := hb
    have hr : s.result = [] := Out.ok.inj ht
    show (do
      let p ← myMallocMem X b.index
      mWrite p 0 (b.data.take b.index)
      pure (some p, some b.index) : Mem Merged) h = _
    rw [hh.index, hr]
    unfold myMallocMem
    rw [if_pos ⟨rfl, hX⟩]
    rfl
  | fail => exact hb.elim
  | fault e => cases ht

theorem bitmaps_zero (X : Malloc) (v0 v1 : Bytes) (hX : X.zeroNull = true) (h0 : v0 ≠ []) (h1 : v1 ≠ [])
    (hm : mergeBitmaps v0 v1 = .ok []) (h : Heap) : mergeBitmapsMem X v0 v1 h = .fault .abort := by
  revert hm
  unfold mergeBitmapsMem mergeBitmaps
  have hne : ¬ (v0.length = 0 ∨ v1.length = 0) := by
    rintro (e | e)
    · exact h0 (List.length_eq_zero_iff.1 e)
    · exact h1 (List.length_eq_zero_iff.1 e)
  rw [if_neg hne, if_neg hne]
  split
  · next e => exact fun hm => absurd (Out.ok.inj hm) h0
  · have sets : ∀ v0 v1, (do
        let ts1 ← Out.ofOption (unionUnpack v0)
        let ts2 ← Out.ofOption (unionUnpack v1)
        bmWrite (sortedMergeDedup maxRrtypes ts1 ts2)) = .ok [] → (match unionUnpack v0 with
        | none => pure (none, none)
        | some ts1 =>
          match unionUnpack v1 with
          | none => pure (none, none)
          | some ts2 => bmWriteMem X (sortedMergeDedup maxRrtypes ts1 ts2) : Mem Merged) h = .fault .abort := by
      intro v0 v1 hm
      cases hu : unionUnpack v0 with
      | none =>
        rw [hu] at hm
        cases hm
      | some ts1 =>
        cases hv : unionUnpack v1 with
        | none =>
          rw [hu, hv] at hm
          cases hm
        | some ts2 =>
          rw [hu, hv] at hm
          exact bmWriteMem_zero X _ hX hm h
    rcases v0 with _ | ⟨a, _ | ⟨b, _ | ⟨c, t⟩⟩⟩ <;> rcases v1 with _ | ⟨a', _ | ⟨b', _ | ⟨c', t'⟩⟩⟩ <;>
      first | exact fun hm => sets _ _ hm | exact fun hm => bmWriteMem_zero X _ hX hm h

theorem merge_zero (X : Malloc) (key v0 v1 : Bytes) (hX : X.zeroNull = true) (hk : key.head? = some 1 ∨ key.head? = some 3)
    (h0 : v0 ≠ []) (h1 : v1 ≠ []) (hm : mergeFunc key v0 v1 = .ok []) (h : Heap) : mergeFuncMem X key v0 v1 h = .fault .abort := by
  obtain ⟨t, ks, rfl, ht⟩ : ∃ t ks, key = t :: ks ∧ (t = 1 ∨ t = 3) := by
    cases key with
    | nil => rcases hk with h | h <;> cases h
    | cons t ks => exact ⟨t, ks, rfl, hk.imp Option.some.inj Option.some.inj⟩
  have h1' : ¬ (t = etRrset ∨ t = etRdata) := by rcases ht with rfl | rfl <;> decide
  have h2' : t = etRrsetNameFwd ∨ t = etRdataNameRev := by rcases ht with rfl | rfl <;> decide
  unfold mergeFunc at hm
  simp only [if_neg h1', if_pos h2'] at hm
  unfold mergeFuncMem
  simp only [if_neg h1', if_pos h2']
  exact bitmaps_zero X v0 v1 hX h0 h1 hm h

/-! ## Which faults there are -/

/-- `x` reads behind its buffer or aborts, if it breaks down. -/
def ReadsOrAborts {α : Type} (x : Out α) : Prop := ∀ f, x = .fault f → f = .oobRead ∨ f = .abort

private theorem bd_ok {α : Type} (a : α) : ReadsOrAborts (.ok a) := nofun

private theorem bd_bind {α β : Type} {x : Out α} {f : α → Out β} (hx : ReadsOrAborts x) (hf : ∀ a, ReadsOrAborts (f a)) : ReadsOrAborts (x >>= f) := by
  intro e he
  cases x with
  | ok a => exact hf a e he
  | fail => cases he
  | fault g =>
    cases he
    exact hx _ rfl

private theorem bd_abort {α : Type} : ReadsOrAborts (.fault .abort : Out α) := fun _ h => by cases h; exact .inr rfl

private theorem bd_oob {α : Type} : ReadsOrAborts (.fault .oobRead : Out α) := fun _ h => by cases h; exact .inl rfl

private theorem bd_loop : ∀ n b, ReadsOrAborts (lengthPackedLoop n b)
  | 0, _ => bd_ok _
  | _ + 1, [] => bd_oob
  | n + 1, b :: bs => by
    unfold lengthPackedLoop
    split
    · exact bd_ok _
    · refine bd_bind (bd_loop n bs) fun a => ?_
      split <;> exact bd_ok _

private theorem bd_packed (b : Bytes) (n : Nat) : ReadsOrAborts (varintLengthPacked b n) :=
  bd_bind (bd_loop _ _) fun a => by split <;> exact bd_ok _

private theorem bd_byteAt (b : Bytes) (i : Nat) : ReadsOrAborts (byteAt b i) := by
  unfold byteAt
  split
  · exact bd_ok _
  · exact bd_oob

private theorem bd_low7 (b : Bytes) (i : Nat) : ReadsOrAborts (low7 b i) := bd_bind (bd_byteAt _ _) fun _ => bd_ok _

private theorem bd_decode32 (b : Bytes) : ReadsOrAborts (varintDecode32 b) := by
  unfold varintDecode32
  refine bd_bind (bd_packed _ _) fun len => bd_bind (bd_low7 _ _) fun _ => ?_
  split
  · refine bd_bind (bd_low7 _ _) fun _ => ?_
    split
    · refine bd_bind (bd_low7 _ _) fun _ => ?_
      split
      · refine bd_bind (bd_low7 _ _) fun _ => ?_
        split
        · exact bd_bind (bd_byteAt _ _) fun _ => bd_ok _
        · exact bd_ok _
      · exact bd_ok _
    · exact bd_ok _
  · exact bd_ok _

private theorem bd_loop64 (b : Bytes) : ∀ k i v, ReadsOrAborts (decode64Loop b k i v)
  | 0, _, _ => bd_ok _
  | k + 1, i, v => bd_bind (bd_low7 _ _) fun _ => bd_loop64 b k _ _

private theorem bd_decode64 (b : Bytes) : ReadsOrAborts (varintDecode64 b) := by
  unfold varintDecode64
  refine bd_bind (bd_packed _ _) fun len => ?_
  split
  · exact bd_decode32 _
  · exact bd_bind (bd_low7 _ _) fun _ => bd_bind (bd_low7 _ _) fun _ => bd_bind (bd_low7 _ _) fun _ => bd_bind (bd_low7 _ _) fun _ =>
      bd_bind (bd_loop64 _ _ _ _) fun _ => bd_ok _

private theorem bd_fail {α : Type} : ReadsOrAborts (.fail : Out α) := nofun

private theorem bd_unpack3 (b : Bytes) : ReadsOrAborts (tripletUnpack b) :=
  bd_bind (bd_decode64 _) fun _ => bd_bind (bd_decode64 _) fun _ => bd_bind (bd_decode64 _) fun _ => by
    dsimp only
    split
    · exact bd_ok _
    · exact bd_fail

private theorem bd_unpack2 (b : Bytes) : ReadsOrAborts (pairUnpack b) :=
  bd_bind (bd_decode64 _) fun _ => bd_bind (bd_decode64 _) fun _ => by
    dsimp only
    split
    · exact bd_ok _
    · exact bd_fail

private theorem bd_orAbort {α : Type} {x : Out α} (h : ReadsOrAborts x) : ReadsOrAborts x.orAbort := by
  cases x with
  | ok a => exact h
  | fail => exact bd_abort
  | fault f => exact h

private theorem bd_assert (p : Prop) [Decidable p] : ReadsOrAborts (Out.assert p) := by
  unfold Out.assert
  split
  · exact bd_ok _
  · exact bd_abort

private theorem bd_flush (s : BmState) : ReadsOrAborts (bmFlush s) := by
  unfold bmFlush
  split
  · split
    · exact bd_ok _
    · exact bd_abort
  · exact bd_ok _

private theorem bd_step (s : BmState) (t : Nat) : ReadsOrAborts (bmStep s t) := by
  unfold bmStep
  dsimp only
  split
  · exact bd_bind (bd_flush _) fun _ => bd_ok _
  · exact bd_ok _

private theorem bd_writer : ∀ ts s, ReadsOrAborts (bmLoop s ts)
  | [], _ => bd_ok _
  | t :: ts, s => bd_bind (bd_step s t) fun s => bd_writer ts s

private theorem bd_bmWrite (ts : List Nat) : ReadsOrAborts (bmWrite ts) :=
  bd_bind (bd_writer _ _) fun _ => bd_bind (bd_flush _) fun _ => bd_ok _

private theorem bd_option {α : Type} (x : Option α) : ReadsOrAborts (Out.ofOption x) := by
  cases x with
  | none => exact bd_fail
  | some a => exact bd_ok _

private theorem bd_bitmaps (v0 v1 : Bytes) : ReadsOrAborts (mergeBitmaps v0 v1) := by
  unfold mergeBitmaps
  split
  · exact bd_ok _
  · split
    · exact bd_ok _
    · dsimp only
      split
      · exact bd_bmWrite _
      · exact bd_bmWrite _
      · exact bd_bind (bd_option _) fun _ => bd_bind (bd_option _) fun _ => bd_bmWrite _

theorem bd_merge (key v0 v1 : Bytes) : ReadsOrAborts (mergeFunc key v0 v1) := by
  unfold mergeFunc
  split
  · exact bd_ok _
  · split
    · unfold mergeTriplets
      exact bd_bind (bd_assert _) fun _ => bd_bind (bd_orAbort (bd_unpack3 _)) fun _ => bd_bind (bd_orAbort (bd_unpack3 _))
        fun _ => bd_ok _
    · split
      · exact bd_bitmaps _ _
      · split
        · unfold mergeTimeRange
          split
          · exact bd_ok _
          · exact bd_bind (bd_orAbort (bd_unpack2 _)) fun _ => bd_bind (bd_orAbort (bd_unpack2 _)) fun _ => bd_ok _
        · split
          · split
            · unfold mergeVersion
              split
              · exact bd_ok _
              · split
                · exact bd_bind (bd_decode32 _) fun _ => bd_bind (bd_assert _) fun _ => bd_bind (bd_decode32 _) fun _ =>
                    bd_bind (bd_assert _) fun _ => bd_ok _
                · exact bd_ok _
            · exact bd_ok _
          · exact bd_ok _

end Verif
