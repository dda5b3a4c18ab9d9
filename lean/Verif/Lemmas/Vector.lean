import Verif.Model.Vector
import Verif.Spec.Vector

/-!
# Growable arrays hold sequences (for C55)
-/

namespace Verif
open Spec

/-- The C library refuses requests no object can have the size of (`PTRDIFF_MAX`). -/
def GrantOk (grant : Nat → Bool) : Prop := ∀ b, 2 ^ 63 ≤ b → grant b = false

/-- It serves all others. -/
def Generous (grant : Nat → Bool) : Prop := ∀ b, b < 2 ^ 63 → grant b = true

namespace Vec
variable {α : Type}

/-- The array holds the sequence `l`. -/
structure Holds (sz : Nat) (u : Vec α) (l : List α) : Prop where
  len : u.v.length = u.nAlloced
  size : u.n = l.length
  ptr : u.p = u.n
  le : u.n ≤ u.nAlloced
  pos : 0 < u.nAlloced
  hpos : 0 < u.hint
  bytes : u.nAlloced * sz < 2 ^ 63
  hbytes : u.hint * sz < 2 ^ 63
  vals : u.v.take u.n = l.map some

/-- The outcome of an operation: the array holds `l`, has the hint `h` and room for at most `cap` elements; or the process
has been aborted, which it is only for want of memory. -/
def Faithful (grant : Nat → Bool) (sz : Nat) (l : List α) (h cap need : Nat) (x : Out (Vec α)) : Prop :=
  (∃ u, x = .ok u ∧ Holds sz u l ∧ u.hint = h ∧ u.nAlloced ≤ cap) ∨
  (x = .fault .abort ∧ ¬ (Generous grant ∧ 2 * need * sz ≤ 2 ^ 63))

theorem lt_of_mul_lt {a sz : Nat} (hs : 0 < sz) (h : a * sz < 2 ^ 63) : a < 2 ^ 63 :=
  Nat.lt_of_le_of_lt (Nat.le_mul_of_pos_right a hs) h

theorem Holds.data {sz : Nat} {u : Vec α} {l : List α} (h : Holds sz u l) : u.data = some l := by
  unfold Vec.data
  rw [h.vals]
  clear h
  induction l with
  | nil => rfl
  | cons a l ih => simp [List.mapM_cons] at ih ⊢; simp [ih]

theorem grow_holds {grant : Nat → Bool} (hg : GrantOk grant) {sz : Nat} (hs : 0 < sz) {u : Vec α} {l : List α}
    (h : Holds sz u l) :
    (∃ u', u.grow grant sz = .ok u' ∧ Holds sz u' l ∧ u'.hint = u.hint ∧ u'.nAlloced = 2 * u.nAlloced ∧ u'.n = u.n) ∨
    (u.grow grant sz = .fault .abort ∧ ¬ (Generous grant ∧ 2 * u.nAlloced * sz < 2 ^ 63)) := by
  have hb := h.bytes
  have h63 := lt_of_mul_lt hs hb
  have e1 : u.nAlloced * 2 % sizeMod = 2 * u.nAlloced := by unfold sizeMod; omega
  have e2 : 2 * u.nAlloced * sz % sizeMod = 2 * u.nAlloced * sz := by
    rw [Nat.mul_assoc]; unfold sizeMod; omega
  unfold grow myRealloc
  simp only [e1, e2]
  cases hgr : grant (2 * u.nAlloced * sz) with
  | false =>
    refine .inr ⟨by simp, fun ⟨h1, h2⟩ => ?_⟩
    rw [h1 _ h2] at hgr; cases hgr
  | true =>
    have hlt : 2 * u.nAlloced * sz < 2 ^ 63 := by
      refine Nat.lt_of_not_le fun hc => ?_
      rw [hg _ hc] at hgr; cases hgr
    refine .inl ⟨{ u with v := u.v.take (2 * u.nAlloced * sz / sz) ++ List.replicate (2 * u.nAlloced * sz / sz - u.v.length) none, p := u.n, nAlloced := 2 * u.nAlloced }, by simp, ?_, rfl, rfl, rfl⟩
    have e3 : 2 * u.nAlloced * sz / sz = 2 * u.nAlloced := Nat.mul_div_cancel _ hs
    have hl := h.len
    have hle := h.le
    refine ⟨?_, h.size, rfl, ?_, ?_, h.hpos, hlt, h.hbytes, ?_⟩
    · simp only [e3, List.length_append, List.length_take, List.length_replicate]; omega
    · simp only; omega
    · have := h.pos; simp only; omega
    · simp only [e3]
      rw [List.take_of_length_le (i := 2 * u.nAlloced) (by omega), List.take_append_of_le_length (by omega)]
      exact h.vals

theorem growWhile_holds {grant : Nat → Bool} (hg : GrantOk grant) {sz : Nat} (hs : 0 < sz) {more : Vec α → Bool} {l : List α} {k : Nat}
    (hm : ∀ u : Vec α, Holds sz u l → (more u = true ↔ u.nAlloced < l.length + k)) (cap : Nat) (hcap : 2 * (l.length + k) ≤ cap) :
    ∀ (fuel : Nat) {u : Vec α}, Holds sz u l → 2 ^ 63 ≤ u.nAlloced * 2 ^ fuel → u.nAlloced ≤ cap →
      (∃ u', growWhile grant sz more fuel u = .ok u' ∧ Holds sz u' l ∧ u'.hint = u.hint ∧ u'.nAlloced ≤ cap ∧
        l.length + k ≤ u'.nAlloced) ∨
      (growWhile grant sz more fuel u = .fault .abort ∧ ¬ (Generous grant ∧ 2 * (l.length + k) * sz ≤ 2 ^ 63))
  | 0, u, h, hf, hc => by
    have := lt_of_mul_lt hs h.bytes
    omega
  | fuel + 1, u, h, hf, hc => by
    unfold growWhile
    by_cases hmu : more u = true
    · rw [if_pos hmu]
      have hlt := (hm u h).1 hmu
      rcases grow_holds hg hs h with ⟨u', e1, h1, h2, h3, h4⟩ | ⟨e1, h1⟩
      · rw [e1, Out.ok_bind]
        rcases growWhile_holds hg hs hm cap hcap fuel h1 (by
            rw [h3]
            have e : 2 * u.nAlloced * 2 ^ fuel = u.nAlloced * 2 ^ (fuel + 1) := by
              rw [Nat.pow_succ, Nat.mul_comm (2 ^ fuel) 2, ← Nat.mul_assoc, Nat.mul_comm u.nAlloced 2]
            rw [e]; exact hf) (by omega) with
          ⟨u2, a1, a2, a3, a4, a5⟩ | ha
        · exact .inl ⟨u2, a1, a2, a3.trans h2, a4, a5⟩
        · exact .inr ha
      · rw [e1]
        refine .inr ⟨rfl, fun ⟨a, b⟩ => h1 ⟨a, Nat.lt_of_lt_of_le ?_ b⟩⟩
        exact Nat.mul_lt_mul_of_lt_of_le (by omega) (Nat.le_refl _) hs
    · rw [if_neg hmu]
      refine .inl ⟨u, rfl, h, rfl, hc, ?_⟩
      have := mt (hm u h).2 hmu
      omega

theorem reserve_holds {grant : Nat → Bool} (hg : GrantOk grant) {sz : Nat} (hs : 0 < sz) {u : Vec α} {l : List α}
    (h : Holds sz u l) (k : Nat) :
    (∃ u', u.reserve grant sz k = .ok u' ∧ Holds sz u' l ∧ u'.hint = u.hint ∧
      u'.nAlloced ≤ max u.nAlloced (2 * (l.length + k)) ∧ l.length + k ≤ u'.nAlloced) ∨
    (u.reserve grant sz k = .fault .abort ∧ ¬ (Generous grant ∧ 2 * (l.length + k) * sz ≤ 2 ^ 63)) := by
  refine growWhile_holds hg hs (fun u h => ?_) _ (Nat.le_max_right _ _) 65 h ?_ (Nat.le_max_left _ _)
  · have := lt_of_mul_lt hs h.bytes
    have h1 := h.le
    have h2 := h.size
    have e : (u.nAlloced + sizeMod - u.n) % sizeMod = u.nAlloced - u.n := by unfold sizeMod; omega
    simp only [e, gt_iff_lt, decide_eq_true_eq]
    omega
  · have := h.pos
    omega

theorem store_ok {v xs : List (Option α)} {i : Nat} (h : i + xs.length ≤ v.length) :
    store v i xs = .ok (v.take i ++ xs ++ v.drop (i + xs.length)) := by
  unfold store; rw [if_pos h]

/-- Elements written behind the last one. -/
theorem Holds.push {sz : Nat} (hs : 0 < sz) {u : Vec α} {l : List α} (h : Holds sz u l) {xs ys : List α}
    (hx : l.length + xs.length + ys.length ≤ u.nAlloced) :
    ∃ v, store u.v u.n ((xs ++ ys).map some) = .ok v ∧
      Holds sz { u with v := v, n := (u.n + xs.length) % sizeMod, p := (u.n + xs.length) % sizeMod } (l ++ xs) ∧
      Holds sz { u with v := v } l := by
  have h1 := h.size
  have h2 := h.len
  have h3 := lt_of_mul_lt hs h.bytes
  have e : (u.n + xs.length) % sizeMod = u.n + xs.length := by unfold sizeMod; omega
  have hle : u.n + ((xs ++ ys).map some).length ≤ u.v.length := by simp; omega
  refine ⟨_, store_ok hle, ?_, ?_⟩
  · rw [e]
    refine ⟨?_, ?_, rfl, ?_, h.pos, h.hpos, h.bytes, h.hbytes, ?_⟩
    · simp only [List.length_append, List.length_take, List.length_drop, List.length_map]
      simp only [List.length_append, List.length_map] at hle
      omega
    · simp only [List.length_append]; omega
    · simp only; omega
    · simp only [List.map_append, ← h.vals]
      rw [List.append_assoc, List.append_assoc, List.take_append]
      rw [List.take_of_length_le (by simp; omega), List.take_append_of_le_length (by simp; omega)]
      congr 1
      rw [List.take_of_length_le (by simp; omega)]
  · refine ⟨?_, h.size, h.ptr, h.le, h.pos, h.hpos, h.bytes, h.hbytes, ?_⟩
    · simp only [List.length_append, List.length_take, List.length_drop, List.length_map]
      simp only [List.length_append, List.length_map] at hle
      omega
    · simp only
      rw [List.append_assoc, List.take_append_of_le_length (by simp; omega), List.take_take, Nat.min_self]
      exact h.vals

theorem append_faithful {grant : Nat → Bool} (hg : GrantOk grant) {sz : Nat} (hs : 0 < sz) {u : Vec α} {l xs : List α}
    (h : Holds sz u l) :
    Faithful grant sz (l ++ xs) u.hint (max u.nAlloced (2 * (l.length + xs.length))) (l.length + xs.length)
      (u.append grant sz xs) := by
  unfold append
  rcases reserve_holds hg hs h xs.length with ⟨u', e1, h1, h2, h3, h4⟩ | ⟨e1, h1⟩
  · rw [e1, Out.ok_bind]
    obtain ⟨v, e2, h5, -⟩ := h1.push hs (xs := xs) (ys := []) (by simpa using h4)
    rw [List.append_nil] at e2
    rw [e2, Out.ok_bind]
    exact .inl ⟨_, rfl, h5, h2, h3⟩
  · rw [e1]; exact .inr ⟨rfl, h1⟩

theorem add_faithful {grant : Nat → Bool} (hg : GrantOk grant) {sz : Nat} (hs : 0 < sz) {u : Vec α} {l : List α} {x : α}
    (h : Holds sz u l) :
    Faithful grant sz (l ++ [x]) u.hint (max u.nAlloced (2 * (l.length + 1))) (l.length + 1) (u.add grant sz x) := by
  unfold add
  have hm : ∀ u : Vec α, Holds sz u l → (decide ((u.n + 1) % sizeMod > u.nAlloced) = true ↔ u.nAlloced < l.length + 1) := by
    intro u h
    have := lt_of_mul_lt hs h.bytes
    have h1 := h.le
    have h2 := h.size
    have e : (u.n + 1) % sizeMod = u.n + 1 := by unfold sizeMod; omega
    simp only [e, gt_iff_lt, decide_eq_true_eq]
    omega
  rcases growWhile_holds hg hs hm _ (Nat.le_max_right u.nAlloced _) 65 h (by have := h.pos; omega) (Nat.le_max_left _ _) with
    ⟨u', e1, h1, h2, h3, h4⟩ | ⟨e1, h1⟩
  · rw [e1, Out.ok_bind]
    obtain ⟨v, e2, h5, -⟩ := h1.push hs (xs := [x]) (ys := []) (by simpa using h4)
    simp only [List.append_nil, List.map_cons, List.map_nil] at e2
    rw [e2, Out.ok_bind]
    exact .inl ⟨_, rfl, h5, h2, h3⟩
  · rw [e1]; exact .inr ⟨rfl, h1⟩

theorem advance_ok {sz : Nat} (hs : 0 < sz) {u : Vec α} {l : List α} (h : Holds sz u l) {k : Nat} (hk : l.length + k ≤ u.nAlloced) :
    u.advance k = .ok { u with n := (u.n + k) % sizeMod, p := (u.n + k) % sizeMod } := by
  have h1 := h.size
  have h3 := lt_of_mul_lt hs h.bytes
  unfold advance
  rw [if_pos]
  have e : (u.nAlloced + sizeMod - u.n) % sizeMod = u.nAlloced - u.n := by unfold sizeMod; omega
  omega

theorem fill_faithful {grant : Nat → Bool} (hg : GrantOk grant) {sz : Nat} (hs : 0 < sz) {u : Vec α} {l xs ys : List α}
    (h : Holds sz u l) {k : Nat} (hx : xs.length + ys.length ≤ k) :
    Faithful grant sz (l ++ xs) u.hint (max u.nAlloced (2 * (l.length + k))) (l.length + k)
      (do let u ← u.reserve grant sz k
          let u ← u.poke (xs ++ ys)
          u.advance xs.length) := by
  rcases reserve_holds hg hs h k with ⟨u', e1, h1, h2, h3, h4⟩ | ⟨e1, h1⟩
  · rw [e1, Out.ok_bind]
    obtain ⟨v, e2, h5, h6⟩ := h1.push hs (xs := xs) (ys := ys) (by omega)
    unfold poke
    rw [show store u'.v u'.p _ = _ from h1.ptr.symm ▸ e2, Out.ok_bind, Out.ok_bind, advance_ok hs h6 (by simp only; omega)]
    exact .inl ⟨_, rfl, h5, h2, h3⟩
  · rw [e1]; exact .inr ⟨rfl, h1⟩

theorem value_holds {sz : Nat} {u : Vec α} {l : List α} (h : Holds sz u l) (i : Nat) :
    u.value i = match l[i]? with | some x => .ok x | none => .fault .abort := by
  unfold value
  by_cases hi : i < u.n
  · rw [if_pos hi]
    have h1 : (u.v.take u.n)[i]? = u.v[i]? := List.getElem?_take_of_lt hi
    rw [h.vals, List.getElem?_map] at h1
    rw [h.size] at hi
    rw [← h1, List.getElem?_eq_getElem hi]
    rfl
  · rw [if_neg hi, List.getElem?_eq_none (by have := h.size; omega)]

theorem clip_holds {sz : Nat} {u : Vec α} {l : List α} (h : Holds sz u l) (k : Nat) :
    Holds sz (u.clip k) (l.take k) ∧ (u.clip k).hint = u.hint ∧ (u.clip k).nAlloced = u.nAlloced := by
  have h1 := h.size
  have h2 := h.le
  unfold clip
  split
  · next hk =>
    refine ⟨⟨h.len, ?_, rfl, ?_, h.pos, h.hpos, h.bytes, h.hbytes, ?_⟩, rfl, rfl⟩
    · simp only [List.length_take]; omega
    · simp only; omega
    · have := congrArg (List.take k) h.vals
      rw [List.take_take, Nat.min_eq_left (by omega)] at this
      simpa [List.map_take] using this
  · next hk => rw [List.take_of_length_le (by omega)]; exact ⟨h, rfl, rfl⟩

theorem malloc_holds {grant : Nat → Bool} {sz : Nat} (hs : 0 < sz) {hint : Nat} (hh : 0 < hint)
    (hb : hint * sz < 2 ^ 63) :
    (∃ v : List (Option α), myMalloc grant sz (hint * sz % sizeMod) = .ok v ∧ Holds sz ⟨v, 0, 0, hint, hint⟩ []) ∨
    (myMalloc (α := α) grant sz (hint * sz % sizeMod) = .fault .abort ∧ ¬ Generous grant) := by
  have e : hint * sz % sizeMod = hint * sz := by unfold sizeMod; omega
  unfold myMalloc
  rw [e]
  cases hgr : grant (hint * sz) with
  | false => exact .inr ⟨rfl, fun h => by rw [h _ hb] at hgr; cases hgr⟩
  | true =>
    refine .inl ⟨_, rfl, ⟨?_, rfl, rfl, Nat.zero_le _, hh, hh, hb, hb, rfl⟩⟩
    simp [Nat.mul_div_cancel _ hs]

theorem init_faithful {grant : Nat → Bool} {sz : Nat} (hs : 0 < sz) (hz : sz ≤ 2 ^ 31) (hint : Nat) :
    ∃ h, 0 < h ∧ h ≤ max 1 hint ∧ Faithful grant sz [] h h 0 (init (α := α) grant sz hint) := by
  refine ⟨if hint % 2 ^ 32 = 0 then 1 else hint % 2 ^ 32, ?_, ?_, ?_⟩
  · split <;> omega
  · have := Nat.mod_le hint (2 ^ 32); split <;> omega
  · unfold init
    have hb : (if hint % 2 ^ 32 = 0 then 1 else hint % 2 ^ 32) * sz < 2 ^ 63 := by
      split
      · omega
      · have h1 := Nat.mod_lt hint (show 0 < 2 ^ 32 by omega)
        calc _ ≤ hint % 2 ^ 32 * 2 ^ 31 := Nat.mul_le_mul_left _ hz
          _ < 2 ^ 63 := by omega
    rcases malloc_holds (α := α) (grant := grant) hs (by split <;> omega) hb with ⟨v, e, h⟩ | ⟨e, h⟩
    · simp only [e, Out.ok_bind]
      exact .inl ⟨_, rfl, h, rfl, Nat.le_refl _⟩
    · simp only [e, Out.fault_bind]
      exact .inr ⟨rfl, fun hc => h hc.1⟩

theorem reset_faithful {grant : Nat → Bool} {sz : Nat} (hs : 0 < sz) {u : Vec α} {l : List α} (h : Holds sz u l) :
    Faithful grant sz [] u.hint u.nAlloced l.length (u.reset grant sz) := by
  unfold reset
  have hb := h.hbytes
  have hl := h.len
  split
  · next hgt =>
    have e : u.hint * sz % sizeMod = u.hint * sz := by unfold sizeMod; omega
    unfold myRealloc
    rw [e]
    cases hgr : grant (u.hint * sz) with
    | false => exact .inr ⟨rfl, fun hc => by rw [hc.1 _ hb] at hgr; cases hgr⟩
    | true =>
      refine .inl ⟨_, rfl, ⟨?_, rfl, rfl, Nat.zero_le _, h.hpos, h.hpos, hb, hb, rfl⟩, rfl, by simp only; omega⟩
      simp only [Nat.mul_div_cancel _ hs, List.length_append, List.length_take, List.length_replicate]
      omega
  · exact .inl ⟨_, rfl, ⟨h.len, rfl, rfl, Nat.zero_le _, h.pos, h.hpos, h.bytes, h.hbytes, rfl⟩, rfl, Nat.le_refl _⟩

theorem detach_faithful {grant : Nat → Bool} {sz : Nat} (hs : 0 < sz) {u : Vec α} {l : List α} (h : Holds sz u l) :
    (∃ v u', u.detach grant sz = .ok ((v, l.length), u') ∧ v.take l.length = l.map some ∧ Holds sz u' [] ∧
      u'.hint = u.hint ∧ u'.nAlloced = u.hint) ∨
    (u.detach grant sz = .fault .abort ∧ ¬ Generous grant) := by
  unfold detach
  rcases malloc_holds (α := α) (grant := grant) hs h.hpos h.hbytes with ⟨v, e, h1⟩ | ⟨e, h1⟩
  · rw [e, Out.ok_bind, h.size]
    exact .inl ⟨_, _, rfl, h.size ▸ h.vals, h1, rfl, rfl⟩
  · rw [e]; exact .inr ⟨rfl, h1⟩

end Vec

namespace Ubuf
open Vec

theorem rstrip_holds {u : Ubuf} {l : Bytes} (h : Holds 1 u l) (c : UInt8) :
    ∃ u', rstrip c u = .ok u' ∧ Holds 1 u' (chop c l) ∧ u'.hint = u.hint ∧ u'.nAlloced = u.nAlloced := by
  unfold rstrip chop
  have h1 := h.size
  split
  · next hn =>
    rw [value_holds h, h1]
    have e : l[l.length - 1]? = some (l.getLast (by intro e; simp [e] at h1; omega)) := by
      rw [← List.getLast?_eq_getElem?, List.getLast?_eq_some_getLast]
    rw [e]
    simp only [Out.ok_bind]
    rw [List.getLast?_eq_getElem?, e]
    by_cases hc : l.getLast (by intro e; simp [e] at h1; omega) = c
    · rw [if_pos hc, if_pos (by rw [hc])]
      have := clip_holds h (l.length - 1)
      rw [← List.dropLast_eq_take] at this
      exact ⟨_, rfl, this.1, this.2.1, this.2.2⟩
    · rw [if_neg hc, if_neg (by simpa using hc)]
      exact ⟨_, rfl, h, rfl, rfl⟩
  · next hn =>
    have : l = [] := List.length_eq_zero_iff.1 (by omega)
    subst this
    exact ⟨_, rfl, by simpa using h, rfl, rfl⟩

end Ubuf

end Verif
