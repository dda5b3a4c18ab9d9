import Verif.Lemmas.Wild
import Verif.Lemmas.UnionCheck
import Verif.Spec.Index

/-!
# Lemmas: name indexes
-/

namespace Verif
open Spec

/-! ## Testing the type set of an index entry -/

theorem unionCheckBlocks_safe (bl : List Block) (t : Nat)
    (hw : (bl.map (·.window.toNat)).Pairwise (· < ·)) (hl : ∀ b ∈ bl, b.bits.length ≤ 255)
    (he : ¬ endsBefore t (.bitmap bl)) :
    ∃ b, unionCheckBlocks (t / 256) (t % 256 / 8) (t % 256 % 8) (bl.flatMap Block.bytes) = .ok b := by
  induction bl with
  | nil => exact ⟨false, by simp [unionCheckBlocks]⟩
  | cons b bl ih =>
    simp only [List.map_cons, List.pairwise_cons] at hw
    have hb := hl b (by simp)
    simp only [List.flatMap_cons]
    rw [unionCheckBlocks_block _ _ _ _ _ hb]
    by_cases hwin : b.window.toNat = t / 256
    · rw [if_neg (by simpa using hwin)]
      split
      · exact ⟨_, rfl⟩
      · rename_i hle
        by_cases hlt : t % 256 / 8 < (b.bits ++ bl.flatMap Block.bytes).length
        · rw [byteAt_lt hlt]; exact ⟨_, rfl⟩
        · exfalso
          rw [List.length_append] at hlt
          cases bl with
          | nil => exact he ⟨[], b, rfl, hwin, by omega⟩
          | cons c bl =>
            simp only [List.flatMap_cons, Block.bytes, List.cons_append, List.length_cons] at hlt
            omega
    · rw [if_pos (by simpa using hwin)]
      apply ih hw.2 (fun b hb => hl b (by simp [hb]))
      rintro ⟨bl', c, rfl, h1, h2⟩
      exact he ⟨b :: bl', c, rfl, h1, h2⟩

/-- Outside the places where it reads too far, the type test answers, and never hides a type. -/
theorem rrtypeTest_safe (e : Nat) {s : TypeSet} (h : s.wf) (t : Nat) (he : ¬ endsBefore t s) :
    ∃ b, rrtypeTest e t s.bytes = .ok b ∧ (s.has t = true → b = true) := by
  have hne : s.bytes.isEmpty = false := by simpa using bytes_ne_nil h
  simp only [rrtypeTest, hne, Bool.false_eq_true, false_and, if_false]
  cases s with
  | byte a => exact ⟨_, rfl, fun h => h⟩
  | word lo hi => exact ⟨_, rfl, fun h => h⟩
  | bitmap bl =>
    have hlen := bitmap_bytes_length h.1 (fun b hb => (h.2.2 b hb).1)
    have hl : ∀ b ∈ bl, b.bits.length ≤ 255 := fun b hb => by have := (h.2.2 b hb).2; omega
    have hu : unionCheck t (TypeSet.bitmap bl).bytes =
        unionCheckBlocks (t / 256) (t % 256 / 8) (t % 256 % 8) (bl.flatMap Block.bytes) := by
      unfold unionCheck
      simp only [TypeSet.bytes]
      split
      · rename_i e; simp [e] at hlen
      · rename_i e; simp [e] at hlen
      · rename_i e; simp [e] at hlen
      · rfl
    rw [hu]
    obtain ⟨b, hb⟩ := unionCheckBlocks_safe bl t h.2.1 hl he
    refine ⟨b, hb, fun hh => ?_⟩
    have := (unionCheckBlocks_spec bl t h.2.1 hl).1 hh
    rw [hb] at this
    exact Out.ok.inj this

/-- The same for an index entry, which may have no type set at all. -/
theorem rrtypeTest_entry {e : Nat} (he : e ≠ 1 ∧ e ≠ 3) {s : Option TypeSet} (hs : ∀ t, s = some t → t.wf)
    (t : Nat) (hr : ∀ x, s = some x → ¬ endsBefore t x) :
    ∃ b, rrtypeTest e t (Rec.setBytes s) = .ok b ∧ ((∀ x, s = some x → x.has t = true) → b = true) := by
  cases s with
  | none => exact ⟨true, by simp [rrtypeTest, Rec.setBytes, he.1, he.2, unionCheck], fun _ => rfl⟩
  | some s =>
    obtain ⟨b, h1, h2⟩ := rrtypeTest_safe e (hs s rfl) t (hr s rfl)
    exact ⟨b, h1, fun h => h2 (h s rfl)⟩

/-! ## Lookups of disjoint parts, put together -/

/-- Lists in the order of a text are equal if the records of each text come in the same order. -/
theorem eq_of_fibers {k : Rec → Bytes} : ∀ {l m : List Rec}, l.Pairwise (fun x y => lexLe (k x) (k y) = true) →
    m.Pairwise (fun x y => lexLe (k x) (k y) = true) → (∀ c, l.filter (k · == c) = m.filter (k · == c)) → l = m
  | [], [], _, _, _ => rfl
  | [], y :: m, _, _, h => by have := h (k y); simp at this
  | x :: l, [], _, _, h => by have := h (k x); simp at this
  | x :: l, y :: m, hl, hm, h => by
    have mem : ∀ z, z ∈ x :: l ↔ z ∈ y :: m := by
      intro z
      have e := h (k z)
      constructor
      · intro hz
        have : z ∈ (x :: l).filter (k · == k z) := List.mem_filter.2 ⟨hz, by simp⟩
        rw [e] at this; exact (List.mem_filter.1 this).1
      · intro hz
        have : z ∈ (y :: m).filter (k · == k z) := List.mem_filter.2 ⟨hz, by simp⟩
        rw [← e] at this; exact (List.mem_filter.1 this).1
    have h1 : lexLe (k x) (k y) = true := by
      rcases List.mem_cons.1 ((mem y).2 List.mem_cons_self) with e | e
      · rw [e]; exact lexLe_refl _
      · exact (List.pairwise_cons.1 hl).1 y e
    have h2 : lexLe (k y) (k x) = true := by
      rcases List.mem_cons.1 ((mem x).1 List.mem_cons_self) with e | e
      · rw [e]; exact lexLe_refl _
      · exact (List.pairwise_cons.1 hm).1 x e
    have e := lexLe_antisymm h1 h2
    have e2 := h (k x)
    rw [List.filter_cons_of_pos (by simp), List.filter_cons_of_pos (by simp [e])] at e2
    obtain ⟨e3, -⟩ := List.cons.inj e2
    subst e3
    congr 1
    refine eq_of_fibers (List.pairwise_cons.1 hl).2 (List.pairwise_cons.1 hm).2 fun c => ?_
    have := h c
    simp only [List.filter_cons] at this
    split at this
    · exact (List.cons.inj this).2
    · exact this

private theorem text_trans {k : Rec → Bytes} (x y z : Rec) (h1 : lexLe (k x) (k y) = true) (h2 : lexLe (k y) (k z) = true) :
    lexLe (k x) (k z) = true := lexLe_trans h1 h2

private theorem text_total {k : Rec → Bytes} (x y : Rec) : (lexLe (k x) (k y) || lexLe (k y) (k x)) = true := by
  rcases lexLt_total (k x) (k y) with h | h | h <;> simp [lexLe_iff, h]

theorem sortedBy_perm (k : Rec → Bytes) (l : List Rec) : (sortedBy k l).Perm l := List.mergeSort_perm _ _

theorem sortedBy_pairwise (k : Rec → Bytes) (l : List Rec) :
    (sortedBy k l).Pairwise fun x y => lexLe (k x) (k y) = true := List.pairwise_mergeSort text_trans text_total l

private theorem pairwise_of_all {α : Type} {R : α → α → Prop} {l : List α} (h : ∀ x ∈ l, ∀ y ∈ l, R x y) : l.Pairwise R :=
  List.pairwise_iff_forall_sublist.2 fun hs => h _ (hs.subset (by simp)) _ (hs.subset (by simp))

/-- Sorting does not change the order of records with the same text. -/
theorem sortedBy_fiber (k : Rec → Bytes) (l : List Rec) (c : Bytes) :
    (sortedBy k l).filter (k · == c) = l.filter (k · == c) := by
  have hs : List.Sublist (l.filter (k · == c)) (sortedBy k l) := by
    refine List.sublist_mergeSort text_trans text_total ?_ List.filter_sublist
    refine pairwise_of_all ?_
    intro x hx y hy
    have e1 := (List.mem_filter.1 hx).2
    have e2 := (List.mem_filter.1 hy).2
    rw [beq_iff_eq] at e1 e2
    rw [e1, e2]; exact lexLe_refl _
  have := hs.filter (k · == c)
  rw [List.filter_filter] at this
  simp only [Bool.and_self] at this
  exact (this.eq_of_length (((sortedBy_perm k l).filter _).length_eq.symm)).symm

/-- How the sorted records are found if no two have the same text. -/
theorem sortedBy_eq {k : Rec → Bytes} {l m : List Rec} (hp : m.Perm l) (hm : m.Pairwise fun x y => lexLt (k x) (k y) = true) :
    sortedBy k l = m := by
  refine List.Perm.eq_of_pairwise (le := fun x y => x = y ∨ lexLt (k x) (k y) = true) ?_ ?_ (hm.imp Or.inr)
    ((sortedBy_perm k l).trans hp.symm)
  · intro x y _ _ h1 h2
    rcases h1 with h1 | h1
    · exact h1
    · rcases h2 with h2 | h2
      · exact h2.symm
      · rw [lexLt_asymm h1] at h2; cases h2
  · have hinj : ∀ x ∈ m, ∀ y ∈ m, k x = k y → x = y := by
      intro x hx y hy e
      obtain ⟨a, b, rfl⟩ := List.append_of_mem hx
      rw [List.pairwise_append] at hm
      rcases List.mem_append.1 hy with h | h
      · have := hm.2.2 y h x (by simp)
        rw [e, lexLt_irrefl] at this; cases this
      · rcases List.mem_cons.1 h with h | h
        · exact h.symm
        · have := (List.pairwise_cons.1 hm.2.1).1 y h
          rw [e, lexLt_irrefl] at this; cases this
    refine List.Pairwise.imp_of_mem ?_ (sortedBy_pairwise k l)
    intro x y hx hy h
    rcases lexLe_iff.1 h with h | h
    · exact .inr h
    · exact .inl (hinj x (hp.mem_iff.2 ((sortedBy_perm k l).mem_iff.1 hx)) y (hp.mem_iff.2 ((sortedBy_perm k l).mem_iff.1 hy)) h)

/-- Looking up one text after the other, in their order, gives the records sorted by the text. -/
theorem flatMap_filter_sorted {β : Type} {l : List Rec} {ns : List β} {f : β → Rec → Bool} {g : Rec → Bool}
    {k : Rec → Bytes} {h : β → Bytes} (ho : ns.Pairwise fun m n => lexLt (h m) (h n) = true)
    (hk : ∀ n ∈ ns, ∀ x ∈ l, f n x = true → k x = h n) (hg : ∀ x ∈ l, g x = true ↔ ∃ n ∈ ns, f n x = true) :
    (ns.flatMap fun n => l.filter (f n)) = sortedBy k (l.filter g) := by
  apply eq_of_fibers (k := k)
  · rw [List.pairwise_flatMap]
    constructor
    · intro n hn
      refine pairwise_of_all ?_
      intro x hx y hy
      obtain ⟨hx1, hx2⟩ := List.mem_filter.1 hx
      obtain ⟨hy1, hy2⟩ := List.mem_filter.1 hy
      rw [hk n hn x hx1 hx2, hk n hn y hy1 hy2]; exact lexLe_refl _
    · refine List.pairwise_iff_forall_sublist.2 ?_
      intro m n hs x hx y hy
      obtain ⟨hx1, hx2⟩ := List.mem_filter.1 hx
      obtain ⟨hy1, hy2⟩ := List.mem_filter.1 hy
      rw [hk m (hs.subset (by simp)) x hx1 hx2, hk n (hs.subset (by simp)) y hy1 hy2, lexLe_iff]
      exact .inl (List.pairwise_iff_forall_sublist.1 ho hs)
  · exact sortedBy_pairwise k _
  · intro c
    rw [sortedBy_fiber, List.filter_flatMap]
    have e : ∀ n ∈ ns, (l.filter (f n)).filter (k · == c) = if h n = c then l.filter (f n) else [] := by
      intro n hn
      split
      · rename_i e
        refine List.filter_eq_self.2 fun x hx => ?_
        obtain ⟨h1, h2⟩ := List.mem_filter.1 hx
        rw [hk n hn x h1 h2, e]; simp
      · rename_i e
        refine List.filter_eq_nil_iff.2 fun x hx => ?_
        obtain ⟨h1, h2⟩ := List.mem_filter.1 hx
        rw [hk n hn x h1 h2]; simpa using e
    rw [List.filter_filter]
    by_cases hc : ∃ n ∈ ns, h n = c
    · obtain ⟨n, hn, rfl⟩ := hc
      have e2 : l.filter (fun x => k x == h n && g x) = l.filter (f n) := by
        apply List.filter_congr
        intro x hx
        rw [Bool.eq_iff_iff, Bool.and_eq_true, beq_iff_eq, hg x hx]
        constructor
        · rintro ⟨h1, m, hm, h2⟩
          have h3 := hk m hm x hx h2
          rw [h1] at h3
          have : m = n := by
            obtain ⟨a, b, rfl⟩ := List.append_of_mem hn
            rw [List.pairwise_append] at ho
            rcases List.mem_append.1 hm with h4 | h4
            · have := ho.2.2 m h4 n (by simp)
              rw [h3, lexLt_irrefl] at this; cases this
            · rcases List.mem_cons.1 h4 with h4 | h4
              · exact h4
              · have := (List.pairwise_cons.1 ho.2.1).1 m h4
                rw [h3, lexLt_irrefl] at this; cases this
          rwa [← this]
        · exact fun h1 => ⟨hk n hn x hx h1, n, hn, h1⟩
      rw [e2]
      obtain ⟨a, b, rfl⟩ := List.append_of_mem hn
      rw [List.pairwise_append] at ho
      rw [List.flatMap_append, List.flatMap_cons, e n (by simp), if_pos rfl]
      have ea : ∀ m ∈ a, (l.filter (f m)).filter (k · == h n) = [] := by
        intro m hm
        rw [e m (by simp [hm]), if_neg]
        intro h1
        have := ho.2.2 m hm n (by simp)
        rw [h1, lexLt_irrefl] at this; cases this
      have eb : ∀ m ∈ b, (l.filter (f m)).filter (k · == h n) = [] := by
        intro m hm
        rw [e m (by simp [hm]), if_neg]
        intro h1
        have := (List.pairwise_cons.1 ho.2.1).1 m hm
        rw [h1, lexLt_irrefl] at this; cases this
      rw [List.flatMap_eq_nil_iff.2 ea, List.flatMap_eq_nil_iff.2 eb]; simp
    · have e1 : ns.flatMap (fun n => (l.filter (f n)).filter (k · == c)) = [] := by
        rw [List.flatMap_eq_nil_iff]
        intro n hn
        rw [e n hn, if_neg fun h1 => hc ⟨n, hn, h1⟩]
      rw [e1, eq_comm, List.filter_eq_nil_iff]
      intro x hx h1
      rw [Bool.and_eq_true, beq_iff_eq, hg x hx] at h1
      obtain ⟨h1, n, hn, h2⟩ := h1
      exact hc ⟨n, hn, (hk n hn x hx h2).symm.trans h1⟩

theorem stored_pairwise {Ts : List Rec} (h : Stored Ts) : Ts.Pairwise fun a b => lexLe a.key b.key = true :=
  List.pairwise_map.1 h.sorted

theorem once_pairwise {name : Rec → Option Name} {Ts : List Rec} (h : (Ts.filterMap name).Nodup) :
    Ts.Pairwise fun a b => ∀ m, name a = some m → ∀ n, name b = some n → m ≠ n := by
  exact List.pairwise_filterMap.1 h

/-! ## From an index entry to the lookup key -/

/-- The type at the end of a lookup key. -/
def lookupType (tb : UInt8) (ty : Option Nat) : Bytes :=
  match ty with
  | some t => if tb = 0 ∨ standaloneTypes.contains t = true then leb t else []
  | none => []

theorem indirectKey_entry {a : Ask} (ha : a.legal) {kind : QType} {nm : Bytes} {tb : UInt8}
    (htb : tb = 0 ∨ tb = 2) {key : Bytes} {n : Name} (hn : legalLabels n) (hk : key.drop 1 = wire n)
    {s : Option TypeSet} (hs : ∀ t, s = some t → t.wf)
    (hr : ∀ t x, a.ty = some t → s = some x → ¬ endsBefore t x) :
    ∃ o, indirectKey (a.query kind nm) tb (key, Rec.setBytes s) = .ok o ∧
      (o = none → ∃ t, a.ty = some t ∧ ∃ x, s = some x ∧ x.has t = false) ∧
      ∀ k, o = some k → k = tb :: (wire n.reverse ++ lookupType tb a.ty) := by
  have he : tb.toNat ≠ 1 ∧ tb.toNat ≠ 3 := by rcases htb with rfl | rfl <;> decide
  unfold indirectKey
  cases hty : a.ty with
  | none =>
    have hd : (a.query kind nm).doRrtype = false := by simp [Ask.query, hty]
    rw [hd]
    simp only [Bool.false_eq_true, if_false, Out.ok_bind, hk, reverseName_wire hn, indirectType, hd, false_and]
    refine ⟨_, rfl, by simp, ?_⟩
    intro k hk
    rw [← Option.some.inj hk]
    simp [lookupType]
  | some t =>
    have hd : (a.query kind nm).doRrtype = true := by simp [Ask.query, hty]
    have hrt : (a.query kind nm).rrtype = t := by simp [Ask.query, hty]
    obtain ⟨ht1, ht2⟩ := ha.1 t hty
    obtain ⟨b, hb, hb2⟩ := rrtypeTest_entry he hs t (fun x hx => hr t x hty hx)
    rw [hd, hrt, Nat.mod_eq_of_lt ht1]
    simp only [if_true, hb, Out.ok_bind]
    cases b with
    | false =>
      refine ⟨none, rfl, fun _ => ⟨t, rfl, ?_⟩, by simp⟩
      cases s with
      | none => have := hb2 (by simp); cases this
      | some x =>
        refine ⟨x, rfl, ?_⟩
        cases hx : x.has t with
        | false => rfl
        | true =>
          have := hb2 (by intro y hy; rw [← Option.some.inj hy]; exact hx)
          cases this
    | true =>
      simp only [Bool.not_true, Bool.false_eq_true, if_false, hk, reverseName_wire hn, Out.ok_bind, indirectType,
        hd, hrt, Nat.mod_eq_of_lt ht1, true_and]
      have key : ∀ c : Prop, [Decidable c] → (c ↔ (tb = 0 ∨ standaloneTypes.contains t = true)) → 
          ∃ o, ((if c then Out.ok (tb :: wire n.reverse ++ leb t) else .ok (tb :: wire n.reverse)) >>=
            fun k => Out.ok (some k)) = .ok o ∧ (o = none → ∃ t', some t = some t' ∧ ∃ x, s = some x ∧ x.has t' = false) ∧
            ∀ k, o = some k → k = tb :: (wire n.reverse ++ lookupType tb (some t)) := by
        intro c _ hc
        by_cases h : c
        · rw [if_pos h]
          refine ⟨_, rfl, by simp, fun k hk => ?_⟩
          rw [← Option.some.inj hk, lookupType, if_pos (hc.1 h)]; simp
        · rw [if_neg h]
          refine ⟨_, rfl, by simp, fun k hk => ?_⟩
          rw [← Option.some.inj hk, lookupType, if_neg (fun h2 => h (hc.2 h2))]; simp
      rw [addRrtype_leb _ ht1 ht2]
      have e : (if tb = 0 then Out.ok (tb :: wire n.reverse ++ leb t)
          else if standaloneTypes.contains t = true then .ok (tb :: wire n.reverse ++ leb t)
          else .ok (tb :: wire n.reverse)) =
          if tb = 0 ∨ standaloneTypes.contains t = true then Out.ok (tb :: wire n.reverse ++ leb t)
          else .ok (tb :: wire n.reverse) := by
        by_cases h1 : tb = 0
        · rw [if_pos h1, if_pos (.inl h1)]
        · rw [if_neg h1]; simp only [h1, false_or]
      rw [e]
      exact key _ Iff.rfl

theorem singleLabel_lengths {m nm : Name} (h : m <+: nm) : (∃ l, nm = m ++ [l]) ↔ nm.length = m.length + 1 := by
  obtain ⟨s, rfl⟩ := h
  constructor
  · rintro ⟨l, hl⟩
    rw [hl]; simp
  · intro h
    simp only [List.length_append] at h
    obtain ⟨l, rfl⟩ := List.length_eq_one_iff.1 (show s.length = 1 by omega)
    exact ⟨l, rfl⟩

end Verif
