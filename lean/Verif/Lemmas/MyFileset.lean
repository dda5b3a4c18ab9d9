import Verif.Lemmas.Order
import Verif.Spec.MyFileset

/-!
# Lemmas about the set of files
-/

namespace Verif.MyFileset
open Verif.Spec

/-- Names and pointers of entries. -/
def pairs (es : List Item) : List (Bytes × Nat) := es.map fun e => (e.fname, e.ptr)

/-! ## Names in the text -/

/-- The pieces that are lines. -/
def linesOf (ps : List Bytes) : List Bytes := if ps.getLast? = some [] then ps.dropLast else ps

/-- A text put before the first piece. -/
def before (acc : Bytes) : List Bytes → List Bytes
  | [] => []
  | x :: xs => (acc ++ x) :: xs

theorem cutAt_ne (c : UInt8) (t : Bytes) : cutAt c t ≠ [] := by
  cases t with
  | nil => simp [cutAt]
  | cons b t =>
    simp only [cutAt]
    split
    · simp
    · split <;> simp

theorem linesOf_cons (x : Bytes) {ps : List Bytes} (h : ps ≠ []) : linesOf (x :: ps) = x :: linesOf ps := by
  cases ps with
  | nil => exact absurd rfl h
  | cons y ys =>
    simp only [linesOf, List.getLast?_cons_cons]
    split <;> simp [List.dropLast]

theorem lineName_open (d : Bytes) {acc : Bytes} (h : (10 : UInt8) ∉ acc) : lineName d acc = d ++ 47 :: acc.takeWhile (· ≠ 0) := by
  unfold lineName
  simp only
  rw [if_neg]
  · simp
  · rw [List.append_assoc, List.singleton_append]
    intro hl
    have hm := List.mem_of_getLast? hl
    rw [List.getLast?_append] at hl
    cases ht : acc.takeWhile (· ≠ 0) with
    | nil => rw [ht] at hl; simp at hl
    | cons y ys =>
      rw [ht, List.getLast?_cons_cons] at hl
      have : (10 : UInt8) ∈ y :: ys := by
        rw [List.getLast?_eq_some_getLast (by simp)] at hl
        simp only [Option.some_or, Option.some.injEq] at hl
        rw [← hl]; exact List.getLast_mem _
      rw [← ht] at this
      exact h (List.takeWhile_sublist _ |>.subset this)

theorem lineName_line (d : Bytes) {acc : Bytes} (h : (10 : UInt8) ∉ acc) :
    lineName d (acc ++ [10]) = d ++ 47 :: acc.takeWhile (· ≠ 0) := by
  by_cases h0 : (0 : UInt8) ∈ acc
  · have e : (acc ++ [10]).takeWhile (· ≠ 0) = acc.takeWhile (· ≠ 0) := by
      obtain ⟨a, b, rfl, ha⟩ := List.append_of_mem h0 |>.elim fun a hb => hb.elim fun b hb =>
        (show ∃ a b, acc = a ++ 0 :: b ∧ True from ⟨a, b, hb, trivial⟩)
      rw [List.append_assoc, List.cons_append]
      generalize b ++ [10] = c
      clear h h0
      induction a with
      | nil => simp
      | cons x a ih =>
        rw [List.cons_append, List.cons_append, List.takeWhile_cons, List.takeWhile_cons, ih]
    have := lineName_open d h
    unfold lineName at this ⊢
    rw [e]
    exact this
  · have e : ∀ l : Bytes, (0 : UInt8) ∉ l → l.takeWhile (· ≠ 0) = l := by
      intro l hl
      induction l with
      | nil => rfl
      | cons x l ih =>
        simp only [List.mem_cons, not_or] at hl
        rw [List.takeWhile_cons, if_pos (by simpa using fun e => hl.1 e.symm), ih hl.2]
    unfold lineName
    rw [e _ (by simp [h0]), e _ h0]
    simp only
    rw [if_pos (by simp [← List.append_assoc]), ← List.append_assoc, List.dropLast_concat]
    simp

theorem lines_eq (d : Bytes) : ∀ (t acc : Bytes), (10 : UInt8) ∉ acc → (getLines acc t).map (lineName d) =
    (linesOf (before acc (cutAt 10 t))).map fun l => d ++ 47 :: l.takeWhile (· ≠ 0) := by
  intro t
  induction t with
  | nil =>
    intro acc h
    cases acc with
    | nil => simp [getLines, cutAt, before, linesOf]
    | cons a acc =>
      simp only [getLines, cutAt, before, linesOf, List.append_nil, List.getLast?_singleton, Option.some.injEq]
      rw [if_neg (by simp), List.map_cons, List.map_cons, List.map_nil, List.map_nil, lineName_open d h]
  | cons b t ih =>
    intro acc h
    by_cases hb : b = 10
    · subst hb
      have h2 := ih [] (by simp)
      simp only [getLines, cutAt, if_true, before, List.append_nil, List.map_cons]
      rw [linesOf_cons acc (cutAt_ne 10 t), h2, lineName_line d h, List.map_cons]
      cases hc : cutAt 10 t with
      | nil => exact absurd hc (cutAt_ne 10 t)
      | cons y ys => simp [before]
    · simp only [getLines, cutAt, if_neg hb]
      rw [ih (acc ++ [b]) (by simp [h]; exact fun e => hb e.symm)]
      cases hc : cutAt 10 t with
      | nil => exact absurd hc (cutAt_ne 10 t)
      | cons y ys => simp [before]

theorem names_eq (d t : Bytes) : (getLines [] t).map (lineName d) = namesListed d t := by
  rw [lines_eq d t [] (by simp)]
  unfold namesListed
  cases hc : cutAt 10 t with
  | nil => exact absurd hc (cutAt_ne 10 t)
  | cons y ys => rfl

/-! ## The order and the search -/

theorem strcmp_lt : ∀ {a b : Bytes}, strcmp a b = .lt ↔ lexLt a b = true
  | [], [] => by simp [strcmp]
  | [], _ :: _ => by simp [strcmp]
  | _ :: _, [] => by simp [strcmp]
  | a :: as, b :: bs => by
    rw [strcmp, lexLt_cons]
    split
    · simp_all
    · split
      · next h1 h2 => simp; exact ⟨by omega, fun h => by subst h; omega⟩
      · next h1 h2 =>
        have : a = b := UInt8.toNat_inj.1 (by omega)
        simp [this, strcmp_lt (a := as) (b := bs)]

theorem strcmp_gt : ∀ {a b : Bytes}, strcmp a b = .gt ↔ lexLt b a = true
  | [], [] => by simp [strcmp]
  | [], _ :: _ => by simp [strcmp]
  | _ :: _, [] => by simp [strcmp]
  | a :: as, b :: bs => by
    rw [strcmp, lexLt_cons]
    split
    · next h1 => simp; exact ⟨by omega, fun h => by subst h; omega⟩
    · split
      · simp_all
      · next h1 h2 =>
        have : a = b := UInt8.toNat_inj.1 (by omega)
        simp [this, strcmp_gt (a := as) (b := bs)]

theorem strcmp_eq {a b : Bytes} (h : strcmp a b = .eq) : a = b := by
  rcases lexLt_total a b with g | g | g
  · rw [strcmp_lt.2 g] at h; exact absurd h (by simp)
  · exact g
  · rw [strcmp_gt.2 g] at h; exact absurd h (by simp)

/-- The names of entries ascend. -/
def Ascends (es : List Item) : Prop := es.Pairwise fun x y => lexLt x.fname y.fname = true

theorem search_some {es : List Item} {n : Bytes} : ∀ fuel lo hi i, search es n fuel lo hi = some i →
    ∃ e, es[i]? = some e ∧ e.fname = n := by
  intro fuel
  induction fuel with
  | zero => intro lo hi i h; exact absurd h (by simp [search])
  | succ fuel ih =>
    intro lo hi i h
    rw [search] at h
    split at h
    · split at h
      · exact absurd h (by simp)
      · next e he =>
        split at h
        · exact ih _ _ _ h
        · exact ih _ _ _ h
        · next hc =>
          injection h with h
          exact ⟨e, by rw [← h]; exact he, (strcmp_eq hc).symm⟩
    · exact absurd h (by simp)

theorem search_none {es : List Item} {n : Bytes} (hs : Ascends es) : ∀ fuel lo hi, hi - lo < fuel → hi ≤ es.length →
    (∀ i e, es[i]? = some e → i < lo → lexLt e.fname n = true) →
    (∀ i e, es[i]? = some e → hi ≤ i → lexLt n e.fname = true) → search es n fuel lo hi = none → ∀ e ∈ es, e.fname ≠ n := by
  intro fuel
  induction fuel with
  | zero => intro lo hi h; omega
  | succ fuel ih =>
    intro lo hi hf hl h1 h2 h
    have ord : ∀ {i j : Nat} {x y : Item}, es[i]? = some x → es[j]? = some y → i < j → lexLt x.fname y.fname = true := by
      intro i j x y hx hy hij
      obtain ⟨hi, rfl⟩ := List.getElem?_eq_some_iff.1 hx
      obtain ⟨hj, rfl⟩ := List.getElem?_eq_some_iff.1 hy
      exact List.pairwise_iff_getElem.1 hs i j hi hj hij
    rw [search] at h
    split at h
    · next hlt =>
      split at h
      · next he =>
        rw [List.getElem?_eq_none_iff] at he
        omega
      · next e he =>
        split at h
        · next hc =>
          refine ih _ _ (by omega) (by omega) h1 ?_ h
          intro i x hx hi
          rcases Nat.eq_or_lt_of_le hi with rfl | g
          · rw [he] at hx; injection hx with hx; rw [← hx]; exact strcmp_lt.1 hc
          · exact lexLt_trans (strcmp_lt.1 hc) (ord he hx g)
        · next hc =>
          refine ih _ _ (by omega) hl ?_ h2 h
          intro i x hx hi
          rcases Nat.eq_or_lt_of_le (Nat.le_of_lt_succ hi) with rfl | g
          · rw [he] at hx; injection hx with hx; rw [← hx]; exact strcmp_gt.1 hc
          · exact lexLt_trans (ord hx he g) (strcmp_gt.1 hc)
        · exact absurd h (by simp)
    · intro e he hn
      obtain ⟨i, hi⟩ := List.getElem?_of_mem he
      rcases Nat.lt_or_ge i lo with g | g
      · have := h1 i e hi g; rw [hn, lexLt_irrefl] at this; exact absurd this (by simp)
      · have := h2 i e hi (by omega); rw [hn, lexLt_irrefl] at this; exact absurd this (by simp)

theorem fetch_none {es : List Item} {n : Bytes} (hs : Ascends es) (h : fetchEntry es n = none) : ∀ e ∈ es, e.fname ≠ n :=
  search_none hs _ 0 es.length (by omega) (Nat.le_refl _) (by intro i e _ h; omega)
    (by intro i e he hi; obtain ⟨h, _⟩ := List.getElem?_eq_some_iff.1 he; omega) h

/-! ## The loop over the lines -/

/-- The new entries for the names listed: what is open stays, the others are numbered from `k`. -/
def assign (old : List (Bytes × Nat)) : Nat → List Bytes → List (Bytes × Nat)
  | _, [] => []
  | k, n :: ns =>
    match old.lookup n with
    | some p => (n, p) :: assign old k ns
    | none => (n, k) :: assign old (k + 1) ns

/-- Those of them that are opened. -/
def fresh (old : List (Bytes × Nat)) : Nat → List Bytes → List (Bytes × Nat)
  | _, [] => []
  | k, n :: ns =>
    match old.lookup n with
    | some _ => fresh old k ns
    | none => (n, k) :: fresh old (k + 1) ns

theorem lookup_some {es : List Item} (hs : Ascends es) {e : Item} (he : e ∈ es) : (pairs es).lookup e.fname = some e.ptr := by
  induction es with
  | nil => exact absurd he (by simp)
  | cons x es ih =>
    rw [Ascends, List.pairwise_cons] at hs
    simp only [pairs, List.map_cons, List.lookup_cons]
    rcases List.mem_cons.1 he with rfl | h
    · simp
    · have := hs.1 e h
      have hne : (e.fname == x.fname) = false := by
        rw [beq_eq_false_iff_ne]
        intro hh; rw [hh, lexLt_irrefl] at this; exact absurd this (by simp)
      simp only [hne]
      exact ih hs.2 h

theorem lookup_none {es : List Item} {n : Bytes} (h : ∀ e ∈ es, e.fname ≠ n) : (pairs es).lookup n = none := by
  induction es with
  | nil => rfl
  | cons x es ih =>
    simp only [pairs, List.map_cons, List.lookup_cons]
    have hne : (n == x.fname) = false := by
      rw [beq_eq_false_iff_ne]
      exact fun hh => h x (by simp) hh.symm
    simp only [hne]
    exact ih fun e he => h e (by simp [he])

/-- The entries so far, with those marked whose names are in `L`. -/
def marked (L : List Bytes) (es : List Item) : List Item := es.map fun e => { e with keep := e.keep || decide (e.fname ∈ L) }

theorem pairs_marked (L : List Bytes) (es : List Item) : pairs (marked L es) = pairs es := by
  simp [pairs, marked]

theorem ascends_marked {L : List Bytes} {es : List Item} (h : Ascends es) : Ascends (marked L es) := by
  unfold Ascends marked
  rw [List.pairwise_map]
  exact h

theorem marked_step {es : List Item} (hs : Ascends es) {L : List Bytes} {i : Nat} {e : Item} (he : (marked L es)[i]? = some e) :
    (marked L es).set i { e with keep := true } = marked (L ++ [e.fname]) es := by
  apply List.ext_getElem?
  intro j
  rw [List.getElem?_set]
  have hl : i < (marked L es).length := (List.getElem?_eq_some_iff.1 he).1
  split
  · next hij =>
    subst hij
    simp only [marked, List.getElem?_map] at he ⊢
    cases hx : es[i]? with
    | none => rw [hx] at he; exact absurd he (by simp)
    | some x =>
      rw [hx] at he
      simp only [Option.map_some, Option.some.injEq] at he ⊢
      subst he
      simp
  · next hij =>
    simp only [marked, List.getElem?_map] at he ⊢
    cases hx : es[i]? with
    | none => rw [hx] at he; exact absurd he (by simp)
    | some x =>
      rw [hx] at he
      simp only [Option.map_some, Option.some.injEq] at he
      cases hy : es[j]? with
      | none => rfl
      | some y =>
        have hne : y.fname ≠ e.fname := by
          subst he
          obtain ⟨h1, rfl⟩ := List.getElem?_eq_some_iff.1 hx
          obtain ⟨h2, rfl⟩ := List.getElem?_eq_some_iff.1 hy
          intro hh
          rcases Nat.lt_or_gt_of_ne hij with g | g
          · have := List.pairwise_iff_getElem.1 hs i j h1 h2 g
            rw [hh, lexLt_irrefl] at this; exact absurd this (by simp)
          · have := List.pairwise_iff_getElem.1 hs j i h2 h1 g
            rw [hh, lexLt_irrefl] at this; exact absurd this (by simp)
        simp [hne]

theorem marked_same {es : List Item} {L : List Bytes} {n : Bytes} (h : ∀ e ∈ es, e.fname ≠ n) :
    marked (L ++ [n]) es = marked L es := by
  unfold marked
  apply List.map_congr_left
  intro e he
  have := h e he
  simp [this]

theorem loop_spec {present : Bytes → Bool} {es : List Item} (hs : Ascends es) : ∀ (ns : List Bytes) (L : List Bytes) (new : List Item)
    (k : Nat) (acts : List Act), ∃ ms, ns.foldl (addLine present) ⟨marked L es, new, k, acts⟩ =
      ⟨marked (L ++ ns.filter present) es, new ++ ms, k + (fresh (pairs es) k (ns.filter present)).length,
        acts ++ (fresh (pairs es) k (ns.filter present)).map fun x => .load x.1 x.2⟩ ∧
      pairs ms = assign (pairs es) k (ns.filter present) ∧ ∀ e ∈ ms, e.keep = false := by
  intro ns
  induction ns with
  | nil => intro L new k acts; exact ⟨[], by simp [fresh], rfl, by simp⟩
  | cons n ns ih =>
    intro L new k acts
    rw [List.foldl_cons, addLine]
    by_cases hp : present n = true
    · rw [if_pos hp, List.filter_cons_of_pos hp]
      cases hf : fetchEntry (marked L es) n with
      | none =>
        have hno : ∀ e ∈ es, e.fname ≠ n := by
          intro e he
          exact fetch_none (ascends_marked hs) hf { e with keep := e.keep || decide (e.fname ∈ L) } (List.mem_map.2 ⟨e, he, rfl⟩)
        obtain ⟨ms, h1, h2, h3⟩ := ih (L ++ [n]) (new ++ [⟨false, n, k⟩]) (k + 1) (acts ++ [.load n k])
        rw [marked_same hno] at h1
        refine ⟨⟨false, n, k⟩ :: ms, ?_, ?_, ?_⟩
        · simp only [h1, fresh, lookup_none hno, List.append_assoc, List.singleton_append, List.length_cons, List.map_cons]
          congr 1
          omega
        · simp only [assign, lookup_none hno]
          rw [← h2]; rfl
        · simpa using h3
      | some i =>
        obtain ⟨e, he, hn⟩ := search_some _ _ _ _ hf
        subst hn
        simp only [he]
        rw [marked_step hs he]
        have hlook : (pairs es).lookup e.fname = some e.ptr := by
          rw [← pairs_marked L es]
          exact lookup_some (ascends_marked hs) (List.mem_of_getElem? he)
        obtain ⟨ms, h1, h2, h3⟩ := ih (L ++ [e.fname]) (new ++ [⟨false, e.fname, e.ptr⟩]) k acts
        refine ⟨⟨false, e.fname, e.ptr⟩ :: ms, ?_, ?_, ?_⟩
        · simp only [h1, fresh, hlook, List.append_assoc, List.singleton_append]
        · simp only [assign, hlook]
          rw [← h2]; rfl
        · simpa using h3
    · rw [if_neg hp, List.filter_cons_of_neg hp]
      exact ih L new k acts

/-! ## Sorting -/

theorem place_perm (e : Item) : ∀ es, (place e es).Perm (e :: es)
  | [] => List.Perm.refl _
  | x :: xs => by
    rw [place]
    split
    · exact (List.Perm.cons x (place_perm e xs)).trans (List.Perm.swap e x xs)
    · exact List.Perm.refl _

theorem sort_perm : ∀ es, (sort es).Perm es
  | [] => List.Perm.refl _
  | e :: es => (place_perm e (sort es)).trans ((sort_perm es).cons e)

theorem place_ascends {e : Item} : ∀ {es : List Item}, Ascends es → (∀ x ∈ es, x.fname ≠ e.fname) → Ascends (place e es)
  | [], _, _ => by simp [place, Ascends]
  | x :: xs, h, hn => by
    rw [Ascends, List.pairwise_cons] at h
    rw [place]
    split
    · next hc =>
      refine List.pairwise_cons.2 ⟨?_, place_ascends h.2 fun y hy => hn y (by simp [hy])⟩
      intro y hy
      rcases List.mem_cons.1 ((place_perm e xs).mem_iff.1 hy) with rfl | hy
      · exact strcmp_gt.1 hc
      · exact h.1 y hy
    · next hc =>
      have hex : lexLt e.fname x.fname = true := by
        rcases lexLt_total e.fname x.fname with g | g | g
        · exact g
        · exact absurd g.symm (hn x (by simp))
        · exact absurd (strcmp_gt.2 g) hc
      refine List.pairwise_cons.2 ⟨?_, List.pairwise_cons.2 h⟩
      intro y hy
      rcases List.mem_cons.1 hy with rfl | hy
      · exact hex
      · exact lexLt_trans hex (h.1 y hy)

theorem sort_ascends : ∀ {es : List Item}, (es.map (·.fname)).Nodup → Ascends (sort es)
  | [], _ => by simp [sort, Ascends]
  | e :: es, h => by
    rw [List.map_cons, List.nodup_cons] at h
    refine place_ascends (sort_ascends h.2) ?_
    intro x hx hh
    exact h.1 (hh ▸ List.mem_map_of_mem ((sort_perm es).mem_iff.1 hx))

/-! ## What is dropped -/

theorem drop_marked {L : List Bytes} : ∀ {es : List Item}, (∀ e ∈ es, e.keep = false) →
    drop (marked L es) = ((pairs es).filter fun x => decide (x.1 ∉ L)).map fun x => .unload x.1 x.2
  | [], _ => rfl
  | e :: es, h => by
    have ih := drop_marked (L := L) (es := es) fun x hx => h x (by simp [hx])
    have he := h e (by simp)
    simp only [marked, List.map_cons, pairs, drop, he, Bool.false_or] at ih ⊢
    by_cases g : e.fname ∈ L
    · rw [if_neg (by simp [g]), List.filter_cons_of_neg (by simp [g])]
      exact ih
    · rw [if_pos (by simp [g]), List.filter_cons_of_pos (by simp [g]), List.map_cons, ih]

/-! ## What is held open -/

theorem holding_append : ∀ (as bs : List Act) (l : List (Bytes × Nat)), holding l (as ++ bs) = (holding l as).bind (holding · bs)
  | [], _, _ => rfl
  | .load n p :: as, bs, l => by
    simp only [List.cons_append, holding]
    split
    · rfl
    · exact holding_append as bs _
  | .unload n p :: as, bs, l => by
    simp only [List.cons_append, holding]
    split
    · exact holding_append as bs _
    · rfl

theorem holding_fresh {old : List (Bytes × Nat)} : ∀ (L : List Bytes) (k : Nat) (l : List (Bytes × Nat)), (∀ x ∈ l, x.2 < k) →
    ∃ l', holding l ((fresh old k L).map fun x => .load x.1 x.2) = some l' ∧ l'.Perm (fresh old k L ++ l) := by
  intro L
  induction L with
  | nil => intro k l _; exact ⟨l, rfl, List.Perm.refl _⟩
  | cons n L ih =>
    intro k l h
    unfold fresh
    split
    · exact ih k l h
    · obtain ⟨l', h1, h2⟩ := ih (k + 1) ((n, k) :: l) (by
        intro x hx
        rcases List.mem_cons.1 hx with rfl | hx
        · exact Nat.lt_succ_self _
        · exact Nat.lt_succ_of_lt (h x hx))
      refine ⟨l', ?_, h2.trans List.perm_middle⟩
      simp only [List.map_cons, holding]
      rw [if_neg, h1]
      intro hm
      obtain ⟨x, hx, hk⟩ := List.mem_map.1 hm
      have := h x hx
      omega

theorem holding_drop {R : List (Bytes × Nat)} : ∀ (D l : List (Bytes × Nat)), l.Perm (D ++ R) →
    ∃ l', holding l (D.map fun x => .unload x.1 x.2) = some l' ∧ l'.Perm R := by
  intro D
  induction D with
  | nil => intro l h; exact ⟨l, rfl, h⟩
  | cons d D ih =>
    intro l h
    have hm : d ∈ l := h.mem_iff.2 (by simp)
    obtain ⟨l', h1, h2⟩ := ih (l.erase d) (by
      have := h.erase d
      simpa using this)
    refine ⟨l', ?_, h2⟩
    simp only [List.map_cons, holding]
    rw [if_pos hm, h1]

theorem filter_none {old : List (Bytes × Nat)} {n : Bytes} {ns : List Bytes} (h : old.lookup n = none) :
    (old.filter fun x => decide (x.1 ∈ n :: ns)) = old.filter fun x => decide (x.1 ∈ ns) := by
  apply List.filter_congr
  intro x hx
  have : x.1 ≠ n := by
    intro e
    rw [List.lookup_eq_none_iff] at h
    have := h x hx
    simp [e] at this
  simp [this]

theorem filter_some {n : Bytes} {ns : List Bytes} (hn : n ∉ ns) {p : Nat} : ∀ {old : List (Bytes × Nat)}, (old.map (·.1)).Nodup →
    old.lookup n = some p →
    (old.filter fun x => decide (x.1 ∈ n :: ns)).Perm ((n, p) :: old.filter fun x => decide (x.1 ∈ ns))
  | [], _, h => by simp at h
  | (m, q) :: old, hd, h => by
    rw [List.map_cons, List.nodup_cons] at hd
    rw [List.lookup_cons] at h
    by_cases g : n = m
    · subst g
      simp only [beq_self_eq_true] at h
      injection h with h
      subst h
      have hl : old.lookup n = none := by
        rw [List.lookup_eq_none_iff]
        intro x hx
        simp only [bne_iff_ne, ne_eq]
        intro e
        exact hd.1 (List.mem_map.2 ⟨x, hx, e.symm⟩)
      rw [List.filter_cons_of_pos (by simp), List.filter_cons_of_neg (by simp [hn]), filter_none hl]
    · have hb : (n == m) = false := by simp [g]
      simp only [hb] at h
      have ih := filter_some hn hd.2 h
      by_cases hm : m ∈ ns
      · rw [List.filter_cons_of_pos (by simp [hm]), List.filter_cons_of_pos (by simp [hm])]
        exact (ih.cons _).trans (List.Perm.swap _ _ _)
      · rw [List.filter_cons_of_neg (by simp [hm]; exact fun e => g e.symm), List.filter_cons_of_neg (by simp [hm])]
        exact ih

theorem assign_perm {old : List (Bytes × Nat)} (hd : (old.map (·.1)).Nodup) : ∀ (L : List Bytes) (k : Nat), L.Nodup →
    (assign old k L).Perm (fresh old k L ++ old.filter fun x => decide (x.1 ∈ L)) := by
  intro L
  induction L with
  | nil => intro k _; simp [assign, fresh]
  | cons n L ih =>
    intro k h
    rw [List.nodup_cons] at h
    unfold assign fresh
    split
    · next p hp =>
      refine ((ih k h.2).cons (n, p)).trans ?_
      refine List.perm_middle.symm.trans ?_
      exact List.Perm.append_left _ (filter_some h.1 hd hp).symm
    · next hp =>
      rw [filter_none hp]
      exact (ih (k + 1) h.2).cons (n, k)

theorem assign_names (old : List (Bytes × Nat)) : ∀ (L : List Bytes) (k : Nat), (assign old k L).map (·.1) = L
  | [], _ => rfl
  | n :: L, k => by
    unfold assign
    split <;> simp [assign_names old L]

theorem fresh_names (old : List (Bytes × Nat)) : ∀ (L : List Bytes) (k : Nat),
    (fresh old k L).map (·.1) = L.filter fun n => decide (n ∉ old.map (·.1))
  | [], _ => rfl
  | n :: L, k => by
    unfold fresh
    split
    · next p hp =>
      have : n ∈ old.map (·.1) := by
        apply Classical.byContradiction
        intro hno
        rw [List.lookup_eq_none_iff.2] at hp
        · exact absurd hp (by simp)
        · intro x hx
          simp only [bne_iff_ne, ne_eq]
          intro e
          exact hno (e ▸ List.mem_map_of_mem hx)
      rw [List.filter_cons_of_neg (by simpa using this), fresh_names old L k]
    · next hp =>
      have : n ∉ old.map (·.1) := by
        intro hm
        obtain ⟨x, hx, e⟩ := List.mem_map.1 hm
        have := List.lookup_eq_none_iff.1 hp x hx
        simp [e] at this
      rw [List.filter_cons_of_pos (by simpa using this), List.map_cons, fresh_names old L (k + 1)]

theorem fresh_lt {old : List (Bytes × Nat)} : ∀ (L : List Bytes) (k : Nat), ∀ x ∈ fresh old k L, x.2 < k + (fresh old k L).length
  | [], _ => by simp [fresh]
  | n :: L, k => by
    unfold fresh
    split
    · exact fresh_lt L k
    · intro x hx
      rw [List.length_cons]
      rcases List.mem_cons.1 hx with rfl | hx
      · simp only; omega
      · have := fresh_lt L (k + 1) x hx
        omega

/-! ## One call, and many -/

/-- What holds between the calls. -/
structure Ready (fs : Fileset) : Prop where
  order : Ascends fs.items
  plain : ∀ e ∈ fs.items, e.keep = false
  below : ∀ x ∈ pairs fs.items, x.2 < fs.loads

theorem Ready.names {fs : Fileset} (h : Ready fs) : ((pairs fs.items).map (·.1)).Nodup := by
  rw [pairs, List.map_map, List.nodup_iff_pairwise_ne, List.pairwise_map]
  refine h.order.imp ?_
  intro a b hab e
  simp only [Function.comp] at e
  rw [e, lexLt_irrefl] at hab
  exact absurd hab (by simp)

/-- The set file is new and can be read. -/
def News (fs : Fileset) (sc : Scene) (text : Bytes) : Prop :=
  (∃ i m, sc.stat = some (i, m) ∧ (fs.ino ≠ i ∨ fs.mtime ≠ m)) ∧ sc.file = some text

theorem reload_quiet {fs : Fileset} {sc : Scene} (h : ∀ t, ¬ News fs sc t) :
    (reload fs sc).2 = [] ∧ (reload fs sc).1.items = fs.items ∧ (reload fs sc).1.setdir = fs.setdir ∧
      (reload fs sc).1.loads = fs.loads := by
  unfold reload
  rcases hst : sc.stat with _ | ⟨i, m⟩
  · simp [setfileUpdated]
  · simp only [setfileUpdated]
    split
    · next hc =>
      cases hf : sc.file with
      | none => simp
      | some t => exact absurd ⟨⟨i, m, hst, hc⟩, hf⟩ (h t)
    · simp

theorem reload_news {fs : Fileset} (hr : Ready fs) {sc : Scene} {t : Bytes} (h : News fs sc t) {L : List Bytes}
    (hL : L = (namesListed fs.setdir t).filter sc.present) (hd : L.Nodup) :
    Ready (reload fs sc).1 ∧ (reload fs sc).1.setdir = fs.setdir ∧
      (pairs (reload fs sc).1.items).Perm (assign (pairs fs.items) fs.loads L) ∧
      (reload fs sc).2 = ((fresh (pairs fs.items) fs.loads L).map fun x => .load x.1 x.2) ++
        ((pairs fs.items).filter fun x => decide (x.1 ∉ L)).map fun x => .unload x.1 x.2 := by
  obtain ⟨⟨i, m, hst, hc⟩, hf⟩ := h
  have hm : marked [] fs.items = fs.items := by simp [marked]
  obtain ⟨ms, h1, h2, h3⟩ := loop_spec (present := sc.present) hr.order (namesListed fs.setdir t) [] [] fs.loads []
  rw [← hL, hm, List.nil_append, List.nil_append, List.nil_append] at h1
  rw [← hL] at h2
  have e : reload fs sc = (⟨i, m, fs.setdir, sort ms, fs.loads + (fresh (pairs fs.items) fs.loads L).length⟩,
      ((fresh (pairs fs.items) fs.loads L).map fun x => .load x.1 x.2) ++
        ((pairs fs.items).filter fun x => decide (x.1 ∉ L)).map fun x => .unload x.1 x.2) := by
    unfold reload
    simp only [hst, setfileUpdated, if_pos hc, hf, names_eq, h1, drop_marked hr.plain]
    rfl
  rw [e]
  have hp : (pairs (sort ms)).Perm (assign (pairs fs.items) fs.loads L) := by
    rw [← h2]
    exact (sort_perm ms).map _
  have hp2 := hp.trans (assign_perm hr.names L fs.loads hd)
  refine ⟨⟨?_, ?_, ?_⟩, rfl, hp, rfl⟩
  · apply sort_ascends
    have : ms.map (·.fname) = L := by
      rw [← assign_names (pairs fs.items) L fs.loads, ← h2, pairs, List.map_map]
      rfl
    rw [this]
    exact hd
  · intro x hx
    exact h3 x ((sort_perm ms).mem_iff.1 hx)
  · intro x hx
    rcases List.mem_append.1 (hp2.mem_iff.1 hx) with g | g
    · exact fresh_lt L _ x g
    · have := hr.below x (List.mem_filter.1 g).1
      exact Nat.lt_of_lt_of_le this (Nat.le_add_right _ _)

theorem reload_holding {fs : Fileset} (hr : Ready fs) {sc : Scene}
    (hd : ∀ t, sc.file = some t → ((namesListed fs.setdir t).filter sc.present).Nodup) {l : List (Bytes × Nat)}
    (hl : l.Perm (pairs fs.items)) :
    Ready (reload fs sc).1 ∧ (reload fs sc).1.setdir = fs.setdir ∧
      ∃ l', holding l (reload fs sc).2 = some l' ∧ l'.Perm (pairs (reload fs sc).1.items) := by
  by_cases hn : ∃ t, News fs sc t
  · obtain ⟨t, hn⟩ := hn
    obtain ⟨h1, h2, h3, h4⟩ := reload_news hr hn rfl (hd t hn.2)
    refine ⟨h1, h2, ?_⟩
    have hL := hd t hn.2
    generalize (namesListed fs.setdir t).filter sc.present = L at h3 h4 hL
    obtain ⟨l1, e1, p1⟩ := holding_fresh (old := pairs fs.items) L fs.loads l fun x hx => hr.below x (hl.mem_iff.1 hx)
    have hsplit : (pairs fs.items).Perm (((pairs fs.items).filter fun x => decide (x.1 ∉ L)) ++
        (pairs fs.items).filter fun x => decide (x.1 ∈ L)) := by
      have := List.filter_append_perm (fun x : Bytes × Nat => decide (x.1 ∉ L)) (pairs fs.items)
      simpa using this.symm
    obtain ⟨l2, e2, p2⟩ := holding_drop (R := fresh (pairs fs.items) fs.loads L ++
        (pairs fs.items).filter fun x => decide (x.1 ∈ L)) ((pairs fs.items).filter fun x => decide (x.1 ∉ L)) l1 (by
      refine p1.trans ((List.Perm.append_left _ (hl.trans hsplit)).trans ?_)
      rw [← List.append_assoc, ← List.append_assoc]
      exact List.Perm.append_right _ List.perm_append_comm)
    refine ⟨l2, ?_, p2.trans ((assign_perm hr.names L fs.loads hL).symm.trans h3.symm)⟩
    rw [h4, holding_append, e1]
    exact e2
  · have hq := reload_quiet (fs := fs) (sc := sc) fun t ht => hn ⟨t, ht⟩
    refine ⟨⟨?_, ?_, ?_⟩, hq.2.2.1, l, by rw [hq.1]; rfl, by rw [hq.2.1]; exact hl⟩
    · rw [hq.2.1]; exact hr.order
    · rw [hq.2.1]; exact hr.plain
    · rw [hq.2.1, hq.2.2.2]; exact hr.below

theorem reloads_holding : ∀ (scs : List Scene) (fs : Fileset) (l : List (Bytes × Nat)), Ready fs →
    (∀ sc ∈ scs, ∀ t, sc.file = some t → ((namesListed fs.setdir t).filter sc.present).Nodup) → l.Perm (pairs fs.items) →
    Ready (reloads fs scs).1 ∧ (reloads fs scs).1.setdir = fs.setdir ∧
      ∃ l', holding l (reloads fs scs).2 = some l' ∧ l'.Perm (pairs (reloads fs scs).1.items) := by
  intro scs
  induction scs with
  | nil => intro fs l hr _ hl; exact ⟨hr, rfl, l, rfl, hl⟩
  | cons sc scs ih =>
    intro fs l hr hd hl
    obtain ⟨h1, h2, l1, h3, h4⟩ := reload_holding hr (hd sc (by simp)) hl
    obtain ⟨k1, k2, l2, k3, k4⟩ := ih (reload fs sc).1 l1 h1 (by rw [h2]; exact fun x hx => hd x (by simp [hx])) h4
    refine ⟨k1, k2.trans h2, l2, ?_, k4⟩
    show holding l ((reload fs sc).2 ++ (reloads (reload fs sc).1 scs).2) = _
    rw [holding_append, h3]
    exact k3

theorem reload_seen (fs : Fileset) (sc : Scene) :
    ((reload fs sc).1.ino, (reload fs sc).1.mtime) = sc.stat.getD (fs.ino, fs.mtime) := by
  unfold reload
  rcases hst : sc.stat with _ | ⟨i, m⟩
  · simp [setfileUpdated]
  · simp only [setfileUpdated]
    split
    · cases sc.file <;> simp
    · next h =>
      have : fs.ino = i ∧ fs.mtime = m := by
        constructor <;> (apply Classical.byContradiction; intro g; exact h (by simp [g]))
      simp [this.1, this.2]

theorem reloads_seen : ∀ (scs : List Scene) (fs : Fileset), ((reloads fs scs).1.ino, (reloads fs scs).1.mtime) =
    if scs.any (·.stat.isSome) then lastSeen scs else (fs.ino, fs.mtime) := by
  intro scs
  induction scs with
  | nil => intro fs; rfl
  | cons sc scs ih =>
    intro fs
    show ((reloads (reload fs sc).1 scs).1.ino, (reloads (reload fs sc).1 scs).1.mtime) = _
    rw [ih, reload_seen]
    simp only [List.any_cons, lastSeen]
    by_cases h1 : (scs.any fun x => x.stat.isSome) = true
    · simp only [h1, Bool.or_true, if_true]
    · rw [if_neg h1]
      simp only [Bool.eq_false_iff.2 h1]
      cases sc.stat <;> simp

theorem seen_init (d : Bytes) (scs : List Scene) : ((reloads (init d) scs).1.ino, (reloads (init d) scs).1.mtime) = lastSeen scs := by
  rw [reloads_seen]
  split
  · rfl
  · next h =>
    cases scs with
    | nil => rfl
    | cons sc scs =>
      simp only [List.any_cons, Bool.or_eq_true, not_or, Bool.not_eq_true] at h
      simp only [lastSeen, h.2]
      cases hs : sc.stat with
      | none => rfl
      | some x => rw [hs] at h; simp at h

theorem ready_init (d : Bytes) : Ready (init d) :=
  ⟨by simp [init, Ascends], by simp [init], by simp [init, pairs]⟩

end Verif.MyFileset
