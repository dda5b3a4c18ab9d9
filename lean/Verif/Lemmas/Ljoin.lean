import Verif.Lemmas.Mtbl

/-!
# The left join machine delivers the joined rows
-/

namespace Verif
open Spec

/-- The merge function succeeds with `combine`'s value on rows of `U` and `B` with equal keys. -/
def Merges (merge : MergeFn) (combine : Bytes → Bytes → Bytes → Bytes) (U B : Table) : Prop :=
  ∀ x ∈ U, ∀ b ∈ B, b.1 = x.1 → merge x.1 x.2 b.2 = .ok (combine x.1 x.2 b.2)

/-- The right side of a join relative to the key `lo` the left side has reached. -/
def RightOk (V : View) (B : Table) (right : View × Table) (finished : Bool) (rkv : Option KV)
    (lo : Bytes) : Prop :=
  right.1 = V ∧
  (finished = true → ∀ b ∈ B, inView V b.1 = true → lexLt b.1 lo = true) ∧
  (finished = false → ∃ pre, (∀ x ∈ pre, lexLt x.1 lo = true) ∧
    match rkv with
    | none => B = pre ++ right.2 ∧ ∀ x ∈ right.2, lexLe V.lo x.1 = true
    | some r => B = pre ++ r :: right.2)

theorem RightOk.mono {V : View} {B : Table} {right : View × Table} {fin : Bool}
    {rkv : Option KV} {lo lo' : Bytes} (h : RightOk V B right fin rkv lo)
    (hl : lexLe lo lo' = true) : RightOk V B right fin rkv lo' := by
  obtain ⟨h1, h2, h3⟩ := h
  refine ⟨h1, fun hf b hb hv => lexLt_of_lt_of_le (h2 hf b hb hv) hl, fun hf => ?_⟩
  obtain ⟨pre, hp, hm⟩ := h3 hf
  exact ⟨pre, fun x hx => lexLt_of_lt_of_le (hp x hx) hl, hm⟩

/-- The rows of `B` below and from a key. -/
theorem split_at {B : Table} (hB : Sorted B) (k : Bytes) :
    ∃ pre, B = pre ++ B.dropWhile (fun kv => lexLt kv.1 k) ∧ (∀ x ∈ pre, lexLt x.1 k = true) ∧
      ∀ x ∈ B.dropWhile (fun kv => lexLt kv.1 k), lexLe k x.1 = true := by
  refine ⟨B.takeWhile fun kv => lexLt kv.1 k, (List.takeWhile_append_dropWhile).symm, ?_, ?_⟩
  · intro x hx
    have := mem_takeWhile_imp hx
    exact this
  · intro x hx
    rw [dropWhile_lt hB, List.mem_filter] at hx
    exact hx.2

theorem valueOf_none {B : Table} {k : Bytes} (h : ∀ b ∈ B, b.1 ≠ k) : valueOf B k = none := by
  simp only [valueOf, Option.map_eq_none_iff, List.find?_eq_none, beq_iff_eq]
  exact h

theorem ne_of_lexLt {a b : Bytes} (h : lexLt a b = true) : a ≠ b := by
  rintro rfl; rw [lexLt_irrefl] at h; cases h

theorem valueOf_hit {pre rest : Table} {r : KV} (hp : ∀ x ∈ pre, lexLt x.1 r.1 = true) :
    valueOf (pre ++ r :: rest) r.1 = some r.2 := by
  have : pre.find? (fun kv => kv.1 == r.1) = none := by
    rw [List.find?_eq_none]
    intro x hx
    simpa using ne_of_lexLt (hp x hx)
  simp [valueOf, List.find?_append, this]

/-- What the loop over the right side must achieve. -/
def Joins {L : Mach} {B : Table} {sf : View → Bytes → Bool}
    (combine : Bytes → Bytes → Bytes → Bytes) (V : View) (kv : KV) (left : L.St) (w : World)
    (out : Res × LjoinSt L (curM B sf) × World) : Prop :=
  out.1 = .item (joined combine B kv) ∧ out.2.1.left = left ∧ Frame w out.2.2 ∧
    out.2.2.tick = w.tick ∧ RightOk V B out.2.1.right out.2.1.finished out.2.1.rkv kv.1

theorem joined_miss {combine : Bytes → Bytes → Bytes → Bytes} {B : Table} {kv : KV}
    (h : ∀ b ∈ B, b.1 ≠ kv.1) : joined combine B kv = kv := by
  simp [joined, valueOf_none h]

/-- The comparison when the right row at hand is not below the left key. -/
theorem ljoinCompare_ge {merge : MergeFn} {combine : Bytes → Bytes → Bytes → Bytes} {L : Mach}
    {B : Table} (hB : Sorted B) (sf : View → Bytes → Bool) {V : View} {kv : KV}
    (hm : ∀ b ∈ B, b.1 = kv.1 → merge kv.1 kv.2 b.2 = .ok (combine kv.1 kv.2 b.2))
    (again) (r : KV) (s : LjoinSt L (curM B sf)) (w : World)
    (hok : RightOk V B s.right s.finished s.rkv kv.1) (hr : s.rkv = some r)
    (hf : s.finished = false) (hge : lexLe kv.1 r.1 = true) :
    Joins combine V kv s.left w (ljoinCompare merge L (curM B sf) kv again r s w) := by
  obtain ⟨pre, hpre, h5⟩ := hok.2.2 hf
  simp only [hr] at h5
  unfold ljoinCompare
  cases hc : bytesCompare r.1 kv.1 with
  | lt =>
    have := bytesCompare_lt.1 hc
    have h6 := lexLt_false_iff.2 hge
    rw [this] at h6; cases h6
  | gt =>
    have hgt := bytesCompare_gt.1 hc
    have hn : joined combine B kv = kv := by
      refine joined_miss fun b hb he => ?_
      rw [h5] at hb hB
      rcases List.mem_append.1 hb with hb | hb
      · exact ne_of_lexLt (hpre b hb) he
      · rcases List.mem_cons.1 hb with rfl | hb
        · exact ne_of_lexLt hgt he.symm
        · have hs' : Sorted (r :: s.right.2) := (List.pairwise_append.1 hB).2.1
          exact ne_of_lexLt (lexLt_of_lt_of_le hgt (hs'.head hb)) he.symm
    exact ⟨by rw [hn], rfl, Frame.refl _, rfl, hok⟩
  | eq =>
    have he := bytesCompare_eq.1 hc
    have hmr := hm r (by rw [h5]; simp) he
    have hj : joined combine B kv = (kv.1, combine kv.1 kv.2 r.2) := by
      have : valueOf B kv.1 = some r.2 := by
        rw [h5, ← he]; exact valueOf_hit (by rw [he]; exact hpre)
      simp [joined, this]
    simp only [hmr]
    exact ⟨by rw [hj], rfl, ⟨rfl, rfl, rfl, rfl, Nat.le_refl _⟩, rfl, hok⟩

/-- The loop over the right side once everything below the left key is behind it. -/
theorem ljoinLoop_ge {merge : MergeFn} {combine : Bytes → Bytes → Bytes → Bytes} {L : Mach}
    {B : Table} (hB : Sorted B) (sf : View → Bytes → Bool) {V : View} {kv : KV}
    (hv : inView V kv.1 = true)
    (hm : ∀ b ∈ B, b.1 = kv.1 → merge kv.1 kv.2 b.2 = .ok (combine kv.1 kv.2 b.2))
    {n : Nat} (s : LjoinSt L (curM B sf)) (w : World)
    (hs : RightOk V B s.right s.finished s.rkv kv.1)
    (hge : s.finished = false → ∀ x, (s.rkv = some x ∨ s.rkv = none ∧ x ∈ s.right.2) →
      lexLe kv.1 x.1 = true) :
    Joins combine V kv s.left w (ljoinLoop merge L (curM B sf) kv (n + 1) s w) := by
  obtain ⟨left, ⟨V', rest⟩, fin, rkv⟩ := s
  have hs0 := hs
  obtain ⟨hV, hfin, hpos⟩ := hs
  simp only at hV hfin hpos hge hs0
  subst hV
  unfold ljoinLoop
  cases fin with
  | true =>
    simp only [if_true]
    refine ⟨?_, rfl, Frame.refl _, rfl, hs0⟩
    rw [joined_miss fun b hb he => ?_]
    exact ne_of_lexLt (hfin rfl b hb (by rw [he]; exact hv)) he
  | false =>
    obtain ⟨pre, hpre, hrk⟩ := hpos rfl
    simp only [Bool.false_eq_true, if_false, ljoinFetch]
    cases rkv with
    | some r => exact ljoinCompare_ge hB sf hm _ r _ w hs0 rfl rfl (hge rfl r (.inl rfl))
    | none =>
      obtain ⟨hrk, hlo⟩ := hrk
      cases rest with
      | nil =>
        simp only [curM]
        have hall : ∀ b ∈ B, lexLt b.1 kv.1 = true := by
          intro b hb; rw [hrk] at hb; exact hpre b (by simpa using hb)
        refine ⟨?_, rfl, Frame.refl _, rfl, rfl, fun _ b hb _ => hall b hb, by simp⟩
        rw [joined_miss fun b hb he => ne_of_lexLt (hall b hb) he]
      | cons r rest =>
        by_cases hok : V'.ok r.1 = true
        · have hnx : (curM B sf).next (V', r :: rest) w = (.item r, (V', rest), w) := by
            simp only [curM, hok, if_true]
          simp only [hnx]
          refine ljoinCompare_ge hB sf hm _ r ⟨left, (V', rest), false, some r⟩ w ?_ rfl rfl
            (hge rfl r (.inr ⟨rfl, by simp⟩))
          exact ⟨rfl, by simp, fun _ => ⟨pre, hpre, hrk⟩⟩
        · have hnx : (curM B sf).next (V', r :: rest) w = (.done, (V', r :: rest), w) := by
            simp only [curM, hok, Bool.false_eq_true, if_false]
          simp only [hnx]
          have hall : ∀ b ∈ B, inView V' b.1 = true → lexLt b.1 kv.1 = true := by
            intro b hb hbv
            have hbo := ((inView_iff _ _).1 hbv).2
            rw [hrk] at hb hB
            have hs' : Sorted (r :: rest) := (List.pairwise_append.1 hB).2.1
            rcases List.mem_append.1 hb with hb | hb
            · exact hpre b hb
            · refine absurd ?_ hok
              rcases List.mem_cons.1 hb with rfl | hb
              · exact hbo
              · exact View.ok_mono (hlo r (by simp)) (hs'.head hb) hbo
          refine ⟨?_, rfl, Frame.refl _, rfl, rfl, fun _ => hall, by simp⟩
          rw [joined_miss fun b hb he => ne_of_lexLt (hall b hb (by rw [he]; exact hv)) he]

/-- The comparison when the right row at hand is below the left key. -/
theorem ljoinCompare_lt {merge : MergeFn} {combine : Bytes → Bytes → Bytes → Bytes} {L : Mach}
    {B : Table} (hB : Sorted B) (sf : View → Bytes → Bool) {V : View} {kv : KV}
    (hv : inView V kv.1 = true)
    (hm : ∀ b ∈ B, b.1 = kv.1 → merge kv.1 kv.2 b.2 = .ok (combine kv.1 kv.2 b.2))
    {n : Nat} (r : KV) (s : LjoinSt L (curM B sf)) (w : World) (hV : s.right.1 = V)
    (hf : s.finished = false) (hlt : lexLt r.1 kv.1 = true) :
    Joins combine V kv s.left w
      (ljoinCompare merge L (curM B sf) kv (ljoinLoop merge L (curM B sf) kv (n + 1)) r s w) := by
  obtain ⟨left, ⟨V', rest⟩, fin, rkv⟩ := s
  simp only at hV hf
  subst hV hf
  obtain ⟨pre', hB', hpre', hge'⟩ := split_at hB kv.1
  have hvlo := ((inView_iff _ _).1 hv).1
  simp only [ljoinCompare, bytesCompare_lt.2 hlt]
  have hes : (curM B sf).seek (V', rest) kv.1 w =
      ((curM B sf).seek (V', rest) kv.1 w |>.1, (V', B.dropWhile fun b => lexLt b.1 kv.1), w) := rfl
  cases ok : ((curM B sf).seek (V', rest) kv.1 w).1 with
  | true =>
    rw [ok] at hes
    rw [hes]
    have := ljoinLoop_ge (n := n) (combine := combine) (merge := merge) (L := L) hB sf hv hm
      ⟨left, (V', B.dropWhile fun b => lexLt b.1 kv.1), false, none⟩
      (w.upd .ljoin fun c => { c with seek := c.seek + 1 })
      ⟨rfl, by simp, fun _ => ⟨pre', hpre', hB', fun x hx => lexLe_trans hvlo (hge' x hx)⟩⟩
      (by
        rintro - x (hx | ⟨-, hx⟩)
        · cases hx
        · exact hge' x hx)
    obtain ⟨h1, h2, h3, h4, h5⟩ := this
    exact ⟨h1, h2, ((Frame.refl w).upd _ _).trans h3, h4, h5⟩
  | false =>
    rw [ok] at hes
    rw [hes]
    have hemp : (B.dropWhile fun b => lexLt b.1 kv.1).filter (fun b => V'.ok b.1) = [] := by
      simp only [curM, Bool.not_eq_eq_eq_not, Bool.not_false, Bool.and_eq_true,
        List.isEmpty_iff] at ok
      exact ok.2
    have hall : ∀ b ∈ B, inView V' b.1 = true → lexLt b.1 kv.1 = true := by
      intro b hb hbv
      rw [hB'] at hb
      rcases List.mem_append.1 hb with hb | hb
      · exact hpre' b hb
      · have := List.filter_eq_nil_iff.1 hemp b hb
        exact absurd ((inView_iff _ _).1 hbv).2 (by simpa using this)
    refine ⟨?_, rfl, Frame.refl _, rfl, rfl, fun _ => hall, by simp⟩
    rw [joined_miss fun b hb he => ne_of_lexLt (hall b hb (by rw [he]; exact hv)) he]

/-- The whole loop over the right side. -/
theorem ljoinLoop_spec {merge : MergeFn} {combine : Bytes → Bytes → Bytes → Bytes} {L : Mach}
    {B : Table} (hB : Sorted B) (sf : View → Bytes → Bool) {V : View} {kv : KV}
    (hv : inView V kv.1 = true)
    (hm : ∀ b ∈ B, b.1 = kv.1 → merge kv.1 kv.2 b.2 = .ok (combine kv.1 kv.2 b.2))
    {n : Nat} (s : LjoinSt L (curM B sf)) (w : World) {lo : Bytes}
    (hs : RightOk V B s.right s.finished s.rkv lo) (hlo : lexLe lo kv.1 = true) :
    Joins combine V kv s.left w (ljoinLoop merge L (curM B sf) kv (n + 3) s w) := by
  have hs := hs.mono hlo
  obtain ⟨left, ⟨V', rest⟩, fin, rkv⟩ := s
  cases fin with
  | true => exact ljoinLoop_ge hB sf hv hm _ w hs (by simp)
  | false =>
    obtain ⟨hV, hfin, hpos⟩ := id hs
    obtain ⟨pre, hpre, hrk⟩ := hpos rfl
    simp only at hV; subst hV
    cases rkv with
    | some r =>
      simp only at hrk
      by_cases hlt : lexLt r.1 kv.1 = true
      · unfold ljoinLoop
        simp only [Bool.false_eq_true, if_false, ljoinFetch]
        exact ljoinCompare_lt hB sf hv hm r _ w rfl rfl hlt
      · refine ljoinLoop_ge hB sf hv hm _ w hs ?_
        rintro - x (hx | ⟨hx, -⟩)
        · cases hx; exact lexLt_false_iff.1 (by simpa using hlt)
        · cases hx
    | none =>
      obtain ⟨hrk, hlo'⟩ := hrk
      simp only at hrk hlo'
      cases rest with
      | nil =>
        refine ljoinLoop_ge hB sf hv hm _ w hs ?_
        rintro - x (hx | ⟨-, hx⟩)
        · cases hx
        · simp at hx
      | cons r rest =>
        have hs' : Sorted (r :: rest) := by
          rw [hrk] at hB; exact (List.pairwise_append.1 hB).2.1
        by_cases hlt : lexLt r.1 kv.1 = true
        · have hok : V'.ok r.1 = true :=
            View.ok_mono (hlo' r (by simp)) (lexLe_iff.2 (.inl hlt)) ((inView_iff _ _).1 hv).2
          have hnx : (curM B sf).next (V', r :: rest) w = (.item r, (V', rest), w) := by
            simp only [curM, hok, if_true]
          unfold ljoinLoop
          simp only [Bool.false_eq_true, if_false, ljoinFetch, hnx]
          exact ljoinCompare_lt hB sf hv hm r ⟨left, (V', rest), false, some r⟩ w rfl rfl hlt
        · have hle := lexLt_false_iff.1 (by simpa using hlt)
          refine ljoinLoop_ge hB sf hv hm _ w hs ?_
          rintro - x (hx | ⟨-, hx⟩)
          · cases hx
          · rcases List.mem_cons.1 hx with rfl | hx
            · exact hle
            · exact lexLe_trans hle (hs'.head hx)

/-- The rows to come at a join. -/
def LjoinR {L : Mach} (R : L.St → Bytes → Table → Prop)
    (combine : Bytes → Bytes → Bytes → Bytes) (B : Table) (sf : View → Bytes → Bool) (V : View)
    (T : Table) (s : LjoinSt L (curM B sf)) (lo : Bytes) (O : Table) : Prop :=
  ∃ U, R s.left lo U ∧ O = U.map (joined combine B) ∧ U ⊆ T ∧
    RightOk V B s.right s.finished s.rkv lo ∧ lexLe V.lo lo = true

theorem joined_fst (combine : Bytes → Bytes → Bytes → Bytes) (B : Table) (kv : KV) :
    (joined combine B kv).1 = kv.1 := by
  unfold joined; split <;> rfl

theorem impl_ljoin {L : Mach} {t : Bool} {V : View} {U : Table} (h : Impl L t V U)
    {B : Table} (hB : Sorted B) (sf : View → Bytes → Bool) {merge : MergeFn}
    {combine : Bytes → Bytes → Bytes → Bytes} (hm : Merges merge combine U B)
    (hv : ∀ x ∈ U, inView V x.1 = true) :
    Impl (ljoinM merge L (curM B sf)) t V (U.map (joined combine B)) := by
  obtain ⟨R, hS, h0⟩ := h
  refine ⟨LjoinR R combine B sf V U, ⟨?_, ?_, ?_⟩, U, h0, rfl, fun _ h => h, ?_, lexLe_refl _⟩
  · rintro s lo O ⟨U', hR, rfl, -, -, -⟩
    have := hS.size hR
    rw [List.length_map]; exact this
  · rintro s lo O w ⟨U', hR, rfl, hU, hro, hvlo⟩ ha
    have hn := hS.next w hR ha
    simp only [ljoinM]
    generalize he : L.next s.left w = r at hn
    obtain ⟨res, sl, w1⟩ := r
    obtain ⟨hf, hn⟩ := hn
    rcases hn with ⟨hr, ht, hex, lo', hle, hR'⟩ | ⟨hc, htk, hn⟩
    · simp only at hr; subst hr
      exact ⟨hf, .inl ⟨rfl, ht, hex, lo', hle, U', hR', rfl, hU, hro.mono hle,
        lexLe_trans hvlo hle⟩⟩
    rcases hn with ⟨hr, rfl, lo', hle, hR'⟩ | ⟨kv, U'', hr, rfl, hle, hR'⟩
    · simp only at hr; subst hr
      exact ⟨hf, .inr ⟨hc, htk, .inl ⟨rfl, rfl, lo', hle, [], hR', rfl, hU, hro.mono hle,
        lexLe_trans hvlo hle⟩⟩⟩
    · simp only at hr hf hc htk hR'; subst hr
      have hkU : kv ∈ U := hU (by simp)
      have hj := ljoinLoop_spec
        (n := (curM B sf).size s.right) (L := L) hB sf (hv kv hkU)
        (fun b hb he => hm kv hkU b hb he) { s with left := sl } w1 hro hle
      simp only
      generalize ljoinLoop merge L (curM B sf) kv ((curM B sf).size s.right + 3)
        { s with left := sl } w1 = out at hj
      obtain ⟨res, s', w'⟩ := out
      obtain ⟨hres, hl, hfr, htk', hro'⟩ := hj
      simp only at hres hl hfr htk' hro'
      subst hres
      refine ⟨hf.trans hfr, .inr ⟨?_, ?_, .inr ⟨_, _, rfl, List.map_cons, ?_, ?_⟩⟩⟩
      · intro i h1 h2
        exact hc i h1 (by have h2 : i < w'.tick := h2; rw [htk'] at h2; exact h2)
      · intro h
        show w.tick < w'.tick
        rw [htk']; exact htk h
      · rw [joined_fst]; exact hle
      · rw [joined_fst]
        refine ⟨U'', by rw [hl]; exact hR', rfl, fun x hx => hU (by simp [hx]), hro',
          lexLe_trans hvlo hle⟩
  · rintro s lo O k w ⟨U', hR, rfl, hU, hro, hvlo⟩ hk
    obtain ⟨hf, htk, hRs, hfail⟩ := hS.seek k w hR hk
    have hle : lexLe lo k = true := lexLe_iff.2 (.inl hk)
    have hmap : (U'.map (joined combine B)).filter (fun kv => lexLe k kv.1) =
        (U'.filter fun kv => lexLe k kv.1).map (joined combine B) := by
      rw [List.filter_map]
      congr 1
      refine List.filter_congr fun x _ => ?_
      simp [joined_fst]
    have hsub : (U'.filter fun kv => lexLe k kv.1) ⊆ U := fun x hx => hU (List.mem_filter.1 hx).1
    simp only [ljoinM]
    generalize he : L.seek s.left k w = r at *
    obtain ⟨ok, sl, w1⟩ := r
    simp only at hf htk hRs hfail
    cases ok with
    | false =>
      have hnil := hfail rfl
      refine ⟨hf, htk, ⟨_, hRs, hmap, hsub, hro.mono hle, lexLe_trans hvlo hle⟩, ?_⟩
      intro _; rw [hmap, hnil]; rfl
    | true =>
      simp only [curM]
      refine ⟨hf, htk, ⟨_, hRs, hmap, hsub, ?_, lexLe_trans hvlo hle⟩, by simp⟩
      obtain ⟨pre', hB', hpre', hge'⟩ := split_at hB k
      obtain ⟨hV, -, -⟩ := hro
      refine ⟨hV, ?_, ?_⟩
      · intro hfn b hb hbv
        simp only [hV, Bool.not_not, Bool.and_eq_true, List.isEmpty_iff] at hfn
        rw [hB'] at hb
        rcases List.mem_append.1 hb with hb | hb
        · exact hpre' b hb
        · have := List.filter_eq_nil_iff.1 hfn.2 b hb
          exact absurd ((inView_iff _ _).1 hbv).2 (by simpa using this)
      · intro _
        exact ⟨pre', hpre', hB', fun x hx => lexLe_trans (lexLe_trans hvlo hle) (hge' x hx)⟩
  · obtain ⟨pre', hB', hpre', hge'⟩ := split_at hB V.lo
    refine ⟨rfl, by simp [ljoinM], fun _ => ⟨pre', hpre', hB', hge'⟩⟩

end Verif
