import Verif.Lemmas.MergeMem
import Verif.Props.Union
import Verif.Spec.Merging

/-! # C66: the memory of merged values -/

namespace Verif.Props
open Verif Verif.Spec

/-- An allocator like that of glibc: `malloc(0)` is a block; new blocks are full of the byte 170. -/
private def glibc : Malloc := ⟨fun _ => 170, false⟩

/-- An allocator that answers `malloc(0)` with NULL. -/
private def strict : Malloc := ⟨fun _ => 170, true⟩

private theorem hands_of {X : Malloc} {key v0 v1 : Bytes} {h : Heap} (hs : h.Sane)
    (hg : GivesBlock (mergeFuncMem X key v0 v1) (mergeFunc key v0 v1)) :
    Hands (mergeFuncMem X key v0 v1 h) h (mergeFunc key v0 v1) := by
  have := hg h hs
  revert this
  cases mergeFunc key v0 v1 with
  | ok r =>
    rintro ⟨b, e, hp⟩
    refine ⟨_, b, _, e, ?_, rfl, hp⟩
    intro hm
    obtain ⟨x, hx, e⟩ := List.mem_map.1 hm
    have := hs.below x hx
    omega
  | fail => exact fun e => ⟨_, e⟩
  | fault f => exact id

/-- C66: `dnstable_merge_func` answers with a new block that begins with the merged value (which value that is: C05 to C09), and
with the length of the value; for type sets that are damaged it answers NULL and allocates nothing.  All writes are within
the block and within the buffers on the stack.  Partial: `malloc(0)` is not NULL. -/
theorem C66_merge_partial (X : Malloc) (hX : X.zeroNull = false) (key v0 v1 : Bytes) (h : Heap) (hs : h.Sane) :
    Hands (mergeFuncMem X key v0 v1 h) h (mergeFunc key v0 v1) :=
  hands_of hs (gives_merge X key v0 v1 (.inl hX))

/-- Two RRset values; a type set and a type; two damaged type sets; versions. -/
example : mergeFuncMem glibc [0, 1] [5, 9, 200, 1] [3, 7, 100] {} =
      .ok ((some 0, some 4), ⟨1, [(0, [3, 9, 172, 2] ++ List.replicate 28 170)]⟩) ∧
    mergeFuncMem glibc [1, 0] [0, 1, 0x62] [1, 1] {} = .ok ((some 0, some 6), ⟨1, [(0, [0, 1, 0x62, 1, 1, 0x40])]⟩) ∧
    mergeFuncMem glibc [1, 0] [0, 1, 0x62] [0, 5, 1] {} = .ok ((none, none), {}) ∧
    mergeFuncMem glibc [255, 2] [7] [0x80, 1] {} = .ok ((some 0, some 1), ⟨1, [(0, [7])]⟩) := by
  refine ⟨?_, ?_, ?_, ?_⟩ <;> decide +kernel

/-- C66: so it is with every allocator, for keys other than those of name indexes, for values without type sets, and for type sets
that do not both lack any type. -/
theorem C66_merge_portable (X : Malloc) (key v0 v1 : Bytes) (h : Heap) (hs : h.Sane)
    (hk : ¬ indexKey key ∨ v0 = [] ∨ v1 = [] ∨ ∃ s0 s1 : TypeSet, v0 = s0.bytes ∧ v1 = s1.bytes ∧ s0.wf ∧ s1.wf ∧
      (∃ t, t < 65536 ∧ (s0.has t = true ∨ s1.has t = true)) ∧ ∃ t, t < 65536 ∧ s0.has t = false ∧ s1.has t = false) :
    Hands (mergeFuncMem X key v0 v1 h) h (mergeFunc key v0 v1) := by
  by_cases hi : indexKey key
  · refine hands_of hs (gives_merge X key v0 v1 (.inr ?_))
    rcases hk with hk | hk | hk | ⟨s0, s1, rfl, rfl, w0, w1, ⟨t, ht, hp⟩, hx⟩
    · exact absurd hi hk
    · exact .inl hk
    · exact .inr (.inl hk)
    · refine .inr (.inr (.inr ?_))
      rw [mergeFunc_index hi]
      by_cases he : s0.bytes = s1.bytes
      · unfold mergeBitmaps
        have hn : s0.bytes.length ≠ 0 := by simpa using bytes_ne_nil w0
        rw [← he, if_neg (by omega), if_pos rfl]
        intro e
        exact bytes_ne_nil w0 (Out.ok.inj e)
      · rw [mergeBitmaps_wf w0 w1 he hx]
        split
        · intro e
          have hb := canonBlocks_ne_nil (p := fun t => s0.has t || s1.has t) ht (by simpa using hp)
          have e := Out.ok.inj e
          unfold canon at e
          rw [List.flatMap_eq_nil_iff] at e
          obtain ⟨b, bs, hbs⟩ := List.exists_cons_of_ne_nil hb
          have := e b (by rw [hbs]; exact List.mem_cons_self)
          cases this
        · exact nofun
  · refine hands_of hs (gives_merge X key v0 v1 (.inr (.inr (.inr (.inl ?_)))))
    exact ⟨fun e => hi (.inl e), fun e => hi (.inr e)⟩

example : mergeFuncMem strict [3, 0] (TypeSet.bitmap [⟨0, [0x62]⟩]).bytes (TypeSet.byte 1).bytes {} =
    .ok ((some 0, some 3), ⟨1, [(0, [0, 1, 0x62])]⟩) := by decide +kernel

/-- C66: nothing is written outside of the block or of the buffers, with any allocator and any values: what can go wrong is that
values end too early, and failed assertions. -/
theorem C66_bounds (X : Malloc) (key v0 v1 : Bytes) (h : Heap) (hs : h.Sane) (f : Fault)
    (hf : mergeFuncMem X key v0 v1 h = .fault f) : f = .oobRead ∨ f = .abort := by
  by_cases hX : X.zeroNull = true ∧ indexKey key ∧ v0 ≠ [] ∧ v1 ≠ [] ∧ mergeFunc key v0 v1 = .ok []
  · obtain ⟨hX, hi, h0, h1, hm⟩ := hX
    rw [merge_zero X key v0 v1 hX hi h0 h1 hm h] at hf
    cases hf
    exact .inr rfl
  · have hg := gives_merge X key v0 v1 (by
      by_cases a : X.zeroNull = false
      · exact .inl a
      · by_cases b : v0 = []
        · exact .inr (.inl b)
        · by_cases c : v1 = []
          · exact .inr (.inr (.inl c))
          · by_cases d : indexKey key
            · exact .inr (.inr (.inr (.inr fun e => hX ⟨by simpa using a, d, b, c, e⟩)))
            · exact .inr (.inr (.inr (.inl ⟨fun e => d (.inl e), fun e => d (.inr e)⟩)))) h hs
    have hb := bd_merge key v0 v1
    revert hg hb
    cases mergeFunc key v0 v1 with
    | ok r =>
      rintro ⟨b, e, -⟩
      rw [hf] at e
      cases e
    | fail =>
      intro e
      have e : mergeFuncMem X key v0 v1 h = .ok ((none, none), h) := e
      rw [hf] at e
      cases e
    | fault g =>
      intro e hb
      have e : mergeFuncMem X key v0 v1 h = .fault g := e
      rw [hf] at e
      cases e
      exact hb _ rfl

example : mergeFuncMem glibc [0, 1] [] [1, 2, 3] {} = .fault .abort ∧ mergeFuncMem glibc [0, 1] [128] [1, 2, 3] {} = .fault .oobRead :=
  ⟨by decide +kernel, by decide +kernel⟩

/-- C66: merging all values of a key, mtbl ends with the blocks it began with, and with the value that C05 to C09 are about. -/
theorem C66_many_partial (X : Malloc) (hX : X.zeroNull = false) (key v : Bytes) (ws : List Bytes) (h : Heap) (hs : h.Sane) :
    match ws.foldlM (mergeFunc key) v with
    | .ok r => ∃ h', mergeValuesMem (mergeFuncMem X key) v ws h = .ok (some r, h') ∧ h'.live = h.live
    | .fail => ∃ h', mergeValuesMem (mergeFuncMem X key) v ws h = .ok (none, h') ∧ h'.live = h.live
    | .fault f => mergeValuesMem (mergeFuncMem X key) v ws h = .fault f := by
  induction ws generalizing v h with
  | nil => exact ⟨h, rfl, rfl⟩
  | cons w ws ih =>
    rw [List.foldlM_cons]
    have hg := gives_merge X key v w (.inl hX) h hs
    revert hg
    cases hm : mergeFunc key v w with
    | ok r =>
      rintro ⟨b, e, hp⟩
      have hfresh : h.next ∉ h.live.map Prod.fst := by
        intro hm
        obtain ⟨x, hx, e⟩ := List.mem_map.1 hm
        have := hs.below x hx
        omega
      have hstep : mergeValuesMem (mergeFuncMem X key) v (w :: ws) h =
          mergeValuesMem (mergeFuncMem X key) r ws ⟨h.next + 1, h.live⟩ := by
        show (mergeFuncMem X key v w h >>= fun x => _) = _
        rw [e, Out.ok_bind]
        have hl : mLoad h.next ⟨h.next + 1, (h.next, b) :: h.live⟩ = .ok (b, ⟨h.next + 1, (h.next, b) :: h.live⟩) := by
          simp [mLoad]
        have hfr : mFree (some h.next) ⟨h.next + 1, (h.next, b) :: h.live⟩ = .ok ((), ⟨h.next + 1, h.live⟩) := by
          unfold mFree
          dsimp only
          rw [if_pos (by simp), List.filter_cons_of_neg (by simp)]
          congr 3
          rw [List.filter_eq_self]
          intro x hx
          simp only [ne_eq, decide_not, Bool.not_eq_true', decide_eq_false_iff_not]
          exact fun e => hfresh (List.mem_map.2 ⟨x, hx, e⟩)
        show (mLoad h.next ⟨h.next + 1, (h.next, b) :: h.live⟩ >>= fun x => _) = _
        rw [hl, Out.ok_bind]
        show (mPure (if r.length ≤ b.length then .ok (b.take r.length) else .fault .oobRead)
          ⟨h.next + 1, (h.next, b) :: h.live⟩ >>= fun x => _) = _
        rw [if_pos hp.length_le, ← List.prefix_iff_eq_take.1 hp]
        show (mFree (some h.next) ⟨h.next + 1, (h.next, b) :: h.live⟩ >>= fun x => _) = _
        rw [hfr]
        rfl
      rw [Out.ok_bind, hstep]
      exact ih r ⟨h.next + 1, h.live⟩ ⟨hs.nodup, fun x hx => by have := hs.below x hx; dsimp only; omega⟩
    | fail =>
      intro e
      refine ⟨h, ?_, rfl⟩
      show (mergeFuncMem X key v w h >>= fun x => _) = _
      have e : mergeFuncMem X key v w h = .ok ((none, none), h) := e
      rw [e]
      rfl
    | fault f =>
      intro e
      have e : mergeFuncMem X key v w h = .fault f := e
      show (mergeFuncMem X key v w h >>= fun x => _) = _
      rw [e]
      rfl

example : mergeValuesMem (mergeFuncMem glibc [1, 0]) [1] [[2], [0, 1, 0x62], [0, 1]] ⟨1, [(0, [])]⟩ =
    .ok (some [0, 1, 0x62, 1, 1, 0x80], ⟨4, [(0, [])]⟩) := by decide +kernel

/-- The claim is false for allocators that answer `malloc(0)` with NULL: two legal bitmaps without types abort the merge, though
their merged value is the empty one. -/
theorem C66_zero_counterexample : mergeFuncMem strict [1, 0] [0, 1, 0] [1, 1, 0] {} = .fault .abort ∧
    mergeFunc [1, 0] [0, 1, 0] [1, 1, 0] = .ok [] :=
  ⟨by decide +kernel, by decide +kernel⟩

end Verif.Props
