import Verif.Lemmas.UnionCheck

/-!
# C07 - C11: record type sets of name-index entries

Specification: `Spec.TypeSet` (the three stored forms with membership `has`), `Spec.writerValue`
(the value a writer stores for a set).
-/

namespace Verif.Props
open Verif Verif.Spec

theorem mergeFunc_index {key : Bytes} (hk : key.head? = some 1 ∨ key.head? = some 3) (v0 v1 : Bytes) :
    mergeFunc key v0 v1 = mergeBitmaps v0 v1 := by
  cases key with
  | nil => simp at hk
  | cons t ks =>
    have ht : t = etRrsetNameFwd ∨ t = etRdataNameRev := by
      simpa [etRrsetNameFwd, etRdataNameRev] using hk
    have hn : ¬ (t = etRrset ∨ t = etRdata) := by
      rcases ht with rfl | rfl <;> decide
    simp only [mergeFunc, hn, ht, if_false, if_true]

/-- C07: whenever merging two well-formed non-empty type sets delivers a value, that value is a
well-formed type set whose types are exactly the union.  (`hx`: the sets do not together contain all
65536 types; type 0 is reserved, so this holds of real data.) -/
theorem C07_merge_is_union (key : Bytes) (hk : key.head? = some 1 ∨ key.head? = some 3)
    (s0 s1 : TypeSet) (h0 : s0.wf) (h1 : s1.wf) (hm : ∃ t, s0.has t = true)
    (hx : ∃ t, t < 65536 ∧ s0.has t = false ∧ s1.has t = false)
    (v : Bytes) (hv : mergeFunc key s0.bytes s1.bytes = .ok v) :
    ∃ s : TypeSet, s.wf ∧ v = s.bytes ∧ ∀ t, s.has t = (s0.has t || s1.has t) := by
  rw [mergeFunc_index hk] at hv
  by_cases he : s0.bytes = s1.bytes
  · refine ⟨s0, h0, ?_, ?_⟩
    · unfold mergeBitmaps at hv
      have : s0.bytes.length ≠ 0 := by simpa using bytes_ne_nil h0
      rw [← he, if_neg (by omega), if_pos rfl] at hv
      exact (Out.ok.inj hv).symm
    · intro t; rw [has_of_bytes_eq h0 h1 hx he t]; simp
  · rw [mergeBitmaps_wf h0 h1 he hx] at hv
    split at hv
    · obtain ⟨t, ht⟩ := hm
      refine ⟨.bitmap (canonBlocks (fun t => s0.has t || s1.has t) 256),
        canonBlocks_wf ⟨t, has_lt ht, by simp [ht]⟩, (Out.ok.inj hv).symm, ?_⟩
      intro u
      by_cases hu : u < 65536
      · exact canonBlocks_has _ u hu
      · have : ∀ s : TypeSet, s.has u = false := by
          intro s
          cases hs : s.has u with
          | false => rfl
          | true => exact absurd (has_lt hs) hu
        rw [this, this, this]; rfl
    · cases hv

/-- {A, NS, SOA} merged with {AAAA}: the bitmap of all four. -/
example : mergeFunc [1, 0] (TypeSet.bitmap [⟨0, [0x62]⟩]).bytes (TypeSet.byte 28).bytes
    = .ok [0, 4, 0x62, 0, 0, 0x08] := by decide +kernel

/-- C07: an empty (any type) entry on either side makes the result empty (any type). -/
theorem C07_merge_empty_absorbs (key : Bytes) (hk : key.head? = some 1 ∨ key.head? = some 3)
    (v : Bytes) : mergeFunc key [] v = .ok [] ∧ mergeFunc key v [] = .ok [] := by
  rw [mergeFunc_index hk, mergeFunc_index hk]
  simp [mergeBitmaps]

example : mergeFunc [3, 3, 99, 111, 109, 0] [2] [] = .ok [] := by decide +kernel

/-- C07, needed hypothesis: two (malformed by RFC 4034, but accepted) all-zero bitmaps merge to the
empty value, i.e. from "no type" to "any type". -/
theorem C07_zero_bitmaps_counterexample :
    (TypeSet.bitmap [⟨0, [0]⟩]).wf ∧ (TypeSet.bitmap [⟨1, [0]⟩]).wf
    ∧ mergeFunc [1, 0] (TypeSet.bitmap [⟨0, [0]⟩]).bytes (TypeSet.bitmap [⟨1, [0]⟩]).bytes = .ok []
    ∧ rrtypeTest 1 16 [] = .ok true := by
  refine ⟨by decide, by decide, by decide +kernel, by decide +kernel⟩

/-- One way the library may group the merges of the canonical values of many sets (`none`: the
legacy empty value). -/
def indexValue : Option (Nat → Bool) → Bytes
  | none => []
  | some p => writerValue p

theorem indexTree_eval (key : Bytes) (hk : key.head? = some 1 ∨ key.head? = some 3)
    (t : MTree (Option (Nat → Bool)))
    (hm : ∀ p, some p ∈ t.leaves → ∃ u, u < 65536 ∧ p u = true)
    (hx : ∃ z, z < 65536 ∧ ∀ p, some p ∈ t.leaves → p z = false)
    (v : Bytes) (hv : mergeEval key (t.map indexValue) = .ok v) :
    (none ∈ t.leaves → v = [])
    ∧ (none ∉ t.leaves → v = writerValue fun u => t.leaves.any fun x => x.any (· u)) := by
  induction t generalizing v with
  | leaf x =>
    cases x with
    | none => simp [MTree.leaves, MTree.map, mergeEval, indexValue] at hv ⊢; exact hv
    | some p => simp [MTree.leaves, MTree.map, mergeEval, indexValue] at hv ⊢; exact hv.symm
  | node l r ihl ihr =>
    simp only [MTree.map, mergeEval] at hv
    cases hl : mergeEval key (l.map indexValue) with
    | fail => rw [hl] at hv; cases hv
    | fault e => rw [hl] at hv; cases hv
    | ok a =>
      rw [hl, Out.ok_bind] at hv
      cases hr : mergeEval key (r.map indexValue) with
      | fail => rw [hr] at hv; cases hv
      | fault e => rw [hr] at hv; cases hv
      | ok b =>
        rw [hr, Out.ok_bind] at hv
        obtain ⟨z, hz, hzp⟩ := hx
        obtain ⟨l1, l2⟩ := ihl (fun p hp => hm p (by simp [MTree.leaves, hp]))
          ⟨z, hz, fun p hp => hzp p (by simp [MTree.leaves, hp])⟩ a hl
        obtain ⟨r1, r2⟩ := ihr (fun p hp => hm p (by simp [MTree.leaves, hp]))
          ⟨z, hz, fun p hp => hzp p (by simp [MTree.leaves, hp])⟩ b hr
        simp only [MTree.leaves, List.mem_append]
        by_cases hnl : none ∈ l.leaves
        · rw [l1 hnl, (C07_merge_empty_absorbs key hk b).1] at hv
          exact ⟨fun _ => (Out.ok.inj hv).symm, fun h => absurd (.inl hnl) h⟩
        by_cases hnr : none ∈ r.leaves
        · rw [r1 hnr, (C07_merge_empty_absorbs key hk a).2] at hv
          exact ⟨fun _ => (Out.ok.inj hv).symm, fun h => absurd (.inr hnr) h⟩
        refine ⟨fun h => absurd h (by simp [hnl, hnr]), fun _ => ?_⟩
        have some_leaf : ∀ (s : MTree (Option (Nat → Bool))), none ∉ s.leaves →
            (∀ p, some p ∈ s.leaves → some p ∈ (MTree.node l r).leaves) →
            ∃ u, u < 65536 ∧ (s.leaves.any fun x => x.any (· u)) = true := by
          intro s hs hsub
          have hne := MTree.leaves_ne_nil s
          obtain ⟨x, hx⟩ := List.exists_mem_of_ne_nil _ hne
          cases x with
          | none => exact absurd hx hs
          | some p =>
            obtain ⟨u, hu, hp⟩ := hm p (hsub p hx)
            exact ⟨u, hu, List.any_eq_true.mpr ⟨some p, hx, by simpa using hp⟩⟩
        have none_z : ∀ (s : MTree (Option (Nat → Bool))),
            (∀ p, some p ∈ s.leaves → some p ∈ (MTree.node l r).leaves) →
            (s.leaves.any fun x => x.any (· z)) = false := by
          intro s hsub
          rw [List.any_eq_false]
          intro x hx
          cases x with
          | none => simp
          | some p => simpa using hzp p (hsub p hx)
        have hsl : ∀ p, some p ∈ l.leaves → some p ∈ (MTree.node l r).leaves := by
          intro p hp; simp [MTree.leaves, hp]
        have hsr : ∀ p, some p ∈ r.leaves → some p ∈ (MTree.node l r).leaves := by
          intro p hp; simp [MTree.leaves, hp]
        rw [l2 hnl, r2 hnr, mergeFunc_index hk,
          mergeBitmaps_writer (some_leaf l hnl hsl) (some_leaf r hnr hsr)
            ⟨z, hz, none_z l hsl, none_z r hsr⟩] at hv
        split at hv
        · rw [← Out.ok.inj hv]
          apply writerValue_congr
          intro u _
          simp
        · cases hv

/-- C08: over canonical values, any two groupings with the same set of contributions - in particular
after re-ordering, re-grouping or repeating files - that both deliver a value deliver the same bytes,
namely the canonical value of the union (empty if any contribution is empty). -/
theorem C08_merge_canonical (key : Bytes) (hk : key.head? = some 1 ∨ key.head? = some 3)
    (t u : MTree (Option (Nat → Bool))) (hs : ∀ x, x ∈ t.leaves ↔ x ∈ u.leaves)
    (hm : ∀ p, some p ∈ t.leaves → ∃ x, x < 65536 ∧ p x = true)
    (hx : ∃ z, z < 65536 ∧ ∀ p, some p ∈ t.leaves → p z = false)
    (v w : Bytes) (hv : mergeEval key (t.map indexValue) = .ok v)
    (hw : mergeEval key (u.map indexValue) = .ok w) : v = w := by
  obtain ⟨z, hz, hzp⟩ := hx
  obtain ⟨a1, a2⟩ := indexTree_eval key hk t hm ⟨z, hz, hzp⟩ v hv
  obtain ⟨b1, b2⟩ := indexTree_eval key hk u (fun p hp => hm p ((hs _).mpr hp))
    ⟨z, hz, fun p hp => hzp p ((hs _).mpr hp)⟩ w hw
  by_cases hn : none ∈ t.leaves
  · rw [a1 hn, b1 ((hs _).mp hn)]
  · rw [a2 hn, b2 (fun h => hn ((hs _).mpr h))]
    apply writerValue_congr
    intro y _
    rw [Bool.eq_iff_iff, List.any_eq_true, List.any_eq_true]
    constructor
    · rintro ⟨x, hx, h⟩; exact ⟨x, (hs x).mp hx, h⟩
    · rintro ⟨x, hx, h⟩; exact ⟨x, (hs x).mpr hx, h⟩

example : mergeEval [1] (.node (.node (.leaf [1]) (.leaf [2])) (.leaf [1, 1]))
      = .ok [0, 1, 0x60, 1, 1, 0x40]
    ∧ mergeEval [1] (.node (.leaf [1, 1]) (.node (.leaf [2]) (.node (.leaf [1]) (.leaf [2]))))
      = .ok [0, 1, 0x60, 1, 1, 0x40] := by decide +kernel

/-- C08: merging is commutative and idempotent on canonical values, aborts included. -/
theorem C08_merge_comm_idem (key : Bytes) (hk : key.head? = some 1 ∨ key.head? = some 3)
    (p q : Nat → Bool) (hp : ∃ t, t < 65536 ∧ p t = true) (hq : ∃ t, t < 65536 ∧ q t = true)
    (hx : ∃ t, t < 65536 ∧ p t = false ∧ q t = false) :
    mergeFunc key (writerValue p) (writerValue q) = mergeFunc key (writerValue q) (writerValue p)
    ∧ mergeFunc key (writerValue p) (writerValue p) = .ok (writerValue p) := by
  rw [mergeFunc_index hk, mergeFunc_index hk, mergeFunc_index hk]
  obtain ⟨z, hz, a, b⟩ := hx
  rw [mergeBitmaps_writer hp hq ⟨z, hz, a, b⟩, mergeBitmaps_writer hq hp ⟨z, hz, b, a⟩,
    mergeBitmaps_writer hp hp ⟨z, hz, a, a⟩]
  constructor
  · have : (fun t => p t || q t) = (fun t => q t || p t) := by funext t; exact Bool.or_comm _ _
    rw [this]
    have h2 : (writerValue p = writerValue q) = (writerValue q = writerValue p) :=
      propext ⟨Eq.symm, Eq.symm⟩
    simp only [h2]
  · simp

example : mergeFunc [1] [0, 1, 0x60] [1, 1] = mergeFunc [1] [1, 1] [0, 1, 0x60]
    ∧ mergeFunc [1] [0, 1, 0x60] [0, 1, 0x60] = .ok [0, 1, 0x60] := by decide +kernel

/-- C09 (partial): merging well-formed type sets succeeds when their types fall into at most 30
windows of 256 types (all assigned DNS types fall into 4).  The full statement, without the bound,
is false: see `C09_merge_aborts_counterexample` and `C09_merge_abort_iff`. -/
theorem C09_merge_succeeds_partial (key : Bytes) (hk : key.head? = some 1 ∨ key.head? = some 3)
    (s0 s1 : TypeSet) (h0 : s0.wf) (h1 : s1.wf)
    (hx : ∃ t, t < 65536 ∧ s0.has t = false ∧ s1.has t = false)
    (ws : List Nat) (hws : ws.length ≤ 30)
    (hin : ∀ t, s0.has t = true ∨ s1.has t = true → t / 256 ∈ ws) :
    ∃ v, mergeFunc key s0.bytes s1.bytes = .ok v := by
  rw [mergeFunc_index hk]
  by_cases he : s0.bytes = s1.bytes
  · refine ⟨s0.bytes, ?_⟩
    unfold mergeBitmaps
    have : s0.bytes.length ≠ 0 := by simpa using bytes_ne_nil h0
    rw [← he, if_neg (by omega), if_pos rfl]
  · rw [mergeBitmaps_wf h0 h1 he hx, if_pos]
    · exact ⟨_, rfl⟩
    · have := canon_length_windows (p := fun t => s0.has t || s1.has t) (ws := ws)
        (fun t _ h => hin t (by simpa using h))
      show _ < 1024
      omega

example : ∃ v, mergeFunc [1] (TypeSet.bitmap [⟨0, [0x62]⟩, ⟨127, [0x01]⟩]).bytes
    (TypeSet.word 0 128).bytes = .ok v :=
  ⟨[0, 1, 0x62, 127, 1, 0x01, 128, 1, 0x80], by decide +kernel⟩

/-- C09: exactly when different well-formed sets cannot be merged: the canonical bitmap of the union
has 1024 bytes or more. -/
theorem C09_merge_abort_iff (key : Bytes) (hk : key.head? = some 1 ∨ key.head? = some 3)
    (s0 s1 : TypeSet) (h0 : s0.wf) (h1 : s1.wf) (hne : s0.bytes ≠ s1.bytes)
    (hx : ∃ t, t < 65536 ∧ s0.has t = false ∧ s1.has t = false) :
    mergeFunc key s0.bytes s1.bytes = .fault .abort
      ↔ 1024 ≤ (canon fun t => s0.has t || s1.has t).length := by
  rw [mergeFunc_index hk, mergeBitmaps_wf h0 h1 hne hx]
  have hb : bmBound = 1024 := rfl
  rw [hb]
  by_cases hl : (canon fun t => s0.has t || s1.has t).length < 1024
  · rw [if_pos hl]; simp only [reduceCtorEq, false_iff]; omega
  · rw [if_neg hl]; simp only [true_iff]; omega

/-- The 31 types 255, 511, …: one full-length block in each of 31 windows. -/
def bigSet : TypeSet :=
  .bitmap ((List.range 31).map fun w => ⟨UInt8.ofNat w, List.replicate 31 0 ++ [1]⟩)

/-- C09 is false as stated: a legal 31-type set and a one-type set abort the merging process. -/
theorem C09_merge_aborts_counterexample :
    bigSet.wf ∧ mergeFunc [1, 0] bigSet.bytes (TypeSet.byte 1).bytes = .fault .abort := by
  refine ⟨by decide +kernel, by decide +kernel⟩

example : mergeFunc [3, 0] (TypeSet.byte 1).bytes bigSet.bytes = .fault .abort := by decide +kernel

/-- C10: the index test never hides a type that is in the set, for every stored form. -/
theorem C10_no_false_negative (etype : Nat) (s : TypeSet) (h : s.wf) (t : Nat)
    (ht : s.has t = true) : rrtypeTest etype t s.bytes = .ok true := by
  have hne : s.bytes.isEmpty = false := by simpa using bytes_ne_nil h
  simp only [rrtypeTest, hne, Bool.false_eq_true, false_and, if_false]
  cases s with
  | byte a => simp only [TypeSet.has] at ht; simp only [TypeSet.bytes, unionCheck, ht]
  | word lo hi => simp only [TypeSet.has] at ht; simp only [TypeSet.bytes, unionCheck, le16, ht]
  | bitmap bl =>
    have hlen := bitmap_bytes_length h.1 (fun b hb => (h.2.2 b hb).1)
    unfold unionCheck
    simp only [TypeSet.bytes]
    split
    · rename_i e; simp [e] at hlen
    · rename_i e; simp [e] at hlen
    · rename_i e; simp [e] at hlen
    · exact (unionCheckBlocks_spec bl t h.2.1 (fun b hb => by have := h.2.2 b hb; omega)).1 ht

example : rrtypeTest 3 15 (TypeSet.bitmap [⟨0, [0x62, 0x01]⟩, ⟨1, [0x40]⟩]).bytes = .ok true := by
  decide +kernel

/-- C10: an empty value answers yes for every type in the forward index and for exactly the indexed
types in the reverse index. -/
theorem C10_empty_value (t : Nat) :
    rrtypeTest 1 t [] = .ok true
    ∧ rrtypeTest 3 t [] = .ok (decide (t ∈ [2, 5, 6, 12, 15, 33, 39, 64, 65])) := by
  constructor
  · rfl
  · simp [rrtypeTest, rdataNameRevTypes]

example : rrtypeTest 3 1 [] = .ok false ∧ rrtypeTest 3 15 [] = .ok true := by decide +kernel

/-- C10 (partial): the test is exact and reads only the entry's bytes, except for types whose byte
is the one just past the end of their block.  For those the code reads one byte too far
(`/repo/dnstable/entry.c:1203` tests `>` instead of `>=`): see the two counterexamples. -/
theorem C10_exact_partial (etype : Nat) (s : TypeSet) (h : s.wf) (t : Nat)
    (hb : ∀ bl, s = .bitmap bl → ∀ b ∈ bl, b.window.toNat = t / 256 →
      b.bits.length ≠ t % 256 / 8) :
    rrtypeTest etype t s.bytes = .ok (s.has t) := by
  have hne : s.bytes.isEmpty = false := by simpa using bytes_ne_nil h
  simp only [rrtypeTest, hne, Bool.false_eq_true, false_and, if_false]
  cases s with
  | byte a => rfl
  | word lo hi => rfl
  | bitmap bl =>
    have hlen := bitmap_bytes_length h.1 (fun b hb => (h.2.2 b hb).1)
    unfold unionCheck
    simp only [TypeSet.bytes]
    split
    · rename_i e; rw [e] at hlen; simp at hlen
    · rename_i e; rw [e] at hlen; simp at hlen
    · rename_i e; rw [e] at hlen; simp at hlen
    · exact (unionCheckBlocks_spec bl t h.2.1 (fun b hb => by have := h.2.2 b hb; omega)).2 (hb bl rfl)

example : rrtypeTest 1 28 (TypeSet.bitmap [⟨0, [0x62, 0x01]⟩]).bytes = .ok false := by
  decide +kernel

/-- C10: a value that is damaged hides nothing: if the blocks before the damage are about other types, the answer is yes.
The damage is a byte left over, or a block that is longer than the value. -/
theorem C10_damaged (etype t : Nat) (bl : List Block) (tail : Bytes) (hl : ∀ b ∈ bl, b.bits.length ≤ 255)
    (hw : ∀ b ∈ bl, b.window.toNat ≠ t / 256)
    (ht : tail.length = 1 ∨ ∃ w n rest, tail = w :: n :: rest ∧ rest.length < n.toNat)
    (hlen : 3 ≤ (bl.flatMap Block.bytes ++ tail).length) :
    rrtypeTest etype t (bl.flatMap Block.bytes ++ tail) = .ok true := by
  have key : unionCheckBlocks (t / 256) (t % 256 / 8) (t % 256 % 8) (bl.flatMap Block.bytes ++ tail) = .ok true := by
    clear hlen
    induction bl with
    | nil =>
      rcases ht with h | ⟨w, n, rest, rfl, h⟩
      · match tail, h with
        | [_], _ => simp [unionCheckBlocks]
      · simp only [List.flatMap_nil, List.nil_append]
        rw [unionCheckBlocks_cons, if_pos h]
    | cons b bl ih =>
      rw [List.flatMap_cons, List.append_assoc, unionCheckBlocks_block _ _ _ _ _ (hl b (by simp)), if_pos (hw b (by simp))]
      exact ih (fun b hb => hl b (by simp [hb])) (fun b hb => hw b (by simp [hb]))
  revert hlen key
  generalize bl.flatMap Block.bytes ++ tail = m
  intro hlen key
  match m, hlen with
  | a :: b :: c :: m, _ =>
    simp only [rrtypeTest, List.isEmpty_cons, Bool.false_eq_true, false_and, if_false]
    exact key

example : rrtypeTest 1 28 [1, 1, 0x40, 0] = .ok true ∧ rrtypeTest 1 28 [0, 5, 0x40] = .ok true :=
  ⟨C10_damaged 1 28 [⟨1, [0x40]⟩] [0] (by decide) (by decide) (.inl rfl) (by decide),
    C10_damaged 1 28 [] [0, 5, 0x40] nofun nofun (.inr ⟨_, _, _, rfl, by decide⟩) (by decide)⟩

/-- C10: testing {A, NS, SOA} = `00 01 62` (the man page's example) for type PTR (12) reads past the
end of the stored value. -/
theorem C10_overread_counterexample :
    (TypeSet.bitmap [⟨0, [0x62]⟩]).wf
    ∧ rrtypeTest 1 12 (TypeSet.bitmap [⟨0, [0x62]⟩]).bytes = .fault .oobRead := by
  refine ⟨by decide, by decide +kernel⟩

/-- C10: when another block follows, its window number is taken for type bits, and an absent type
is reported present (a needless lookup, never a lost record). -/
theorem C10_false_positive_counterexample :
    (TypeSet.bitmap [⟨0, [0x62]⟩, ⟨1, [0x40]⟩]).wf
    ∧ (TypeSet.bitmap [⟨0, [0x62]⟩, ⟨1, [0x40]⟩]).has 15 = false
    ∧ rrtypeTest 1 15 (TypeSet.bitmap [⟨0, [0x62]⟩, ⟨1, [0x40]⟩]).bytes = .ok true := by
  refine ⟨by decide, by decide, by decide +kernel⟩

/-- C11: enumerating a well-formed set lists exactly its types, strictly increasing. -/
theorem C11_unpack_exact (s : TypeSet) (h : s.wf) (hx : ∃ t, t < 65536 ∧ s.has t = false) :
    ∃ l, unionUnpack s.bytes = some l ∧ l.Pairwise (· < ·) ∧ ∀ t, t ∈ l ↔ s.has t = true := by
  refine ⟨_, unionUnpack_wf h hx, sortedTypes_sorted _, fun t => ?_⟩
  rw [mem_sortedTypes]
  exact ⟨fun h => h.2, fun h => ⟨has_lt h, h⟩⟩

/-- The man page's second example: A NS SOA MX TXT AAAA LOC NAPTR SPF. -/
example : unionUnpack [0x00, 0x0d, 0x62, 0x01, 0x80, 0x0c, 0x10, 0, 0, 0, 0, 0, 0, 0, 0x10]
    = some [1, 2, 6, 15, 16, 28, 29, 35, 99] := by decide +kernel

/-- C11 (partial): a value of three or more bytes that is enumerated consists of whole blocks with
strictly increasing windows and non-empty bodies, so truncated, trailing, re-ordered or empty-block
bitmaps are rejected.  Missing: blocks of 33 to 255 bytes are accepted, see the counterexample. -/
theorem C11_rejects_malformed_partial (v : Bytes) (hl : 3 ≤ v.length) (l : List Nat)
    (h : unionUnpack v = some l) :
    ∃ bl : List Block, v = (TypeSet.bitmap bl).bytes
      ∧ (bl.map (·.window.toNat)).Pairwise (· < ·)
      ∧ ∀ b ∈ bl, 1 ≤ b.bits.length ∧ b.bits.length ≤ 255 := by
  unfold unionUnpack at h
  split at h
  · simp at hl
  · simp at hl
  · simp at hl
  · cases hu : unpackBlocks none v with
    | none => rw [hu] at h; cases h
    | some ts =>
      obtain ⟨bl, e1, _, e3, e4, _⟩ := unpackBlocks_some hu
      exact ⟨bl, e1, e3, e4⟩

example : unionUnpack [0, 1, 0x62, 7] = none ∧ unionUnpack [0, 3, 0x62, 7] = none
    ∧ unionUnpack [1, 1, 0x62, 0, 1, 0x62] = none ∧ unionUnpack [0, 0, 1, 1, 1] = none := by
  decide +kernel

/-- C11 is false as stated: a block of 33 bytes (RFC 4034 allows 32) is accepted and enumerated out
of order; with window 1 the 257th bit even repeats a type. -/
theorem C11_long_block_counterexample :
    unionUnpack (1 :: 33 :: (0x80 :: List.replicate 31 0x00 ++ [0x80])) = some [256, 256] := by
  decide +kernel

/-- The set of all types. -/
def fullSet : TypeSet := .bitmap ((List.range 256).map fun w => ⟨UInt8.ofNat w, List.replicate 32 255⟩)

theorem fullSet_wf : fullSet.wf := by decide +kernel

theorem fullSet_has (t : Nat) (h : t < 65536) : fullSet.has t = true := by
  have hbit : ∀ o, o < 256 → bitSet (List.replicate 32 255) o = true := by decide +kernel
  simp only [fullSet, TypeSet.has, List.any_map, List.any_eq_true, List.mem_range, Function.comp,
    Bool.and_eq_true, beq_iff_eq, UInt8.toNat_ofNat']
  exact ⟨t / 256, by omega, by omega, hbit _ (by omega)⟩

/-- C11: the one well-formed set that is not enumerated is that of all 65536 types (room for 65535). -/
theorem C11_full_set_counterexample :
    fullSet.wf ∧ (∀ t, t < 65536 → fullSet.has t = true) ∧ unionUnpack fullSet.bytes = none ∧
    ∀ s : TypeSet, s.wf → (unionUnpack s.bytes = none ↔ ∀ t, t < 65536 → s.has t = true) := by
  refine ⟨fullSet_wf, fullSet_has, unionUnpack_full fullSet_wf fullSet_has, fun s h => ⟨fun hn => ?_, unionUnpack_full h⟩⟩
  intro t ht
  cases hs : s.has t with
  | true => rfl
  | false => rw [unionUnpack_wf h ⟨t, ht, hs⟩] at hn; cases hn

end Verif.Props
