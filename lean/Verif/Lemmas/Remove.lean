import Verif.Lemmas.Ljoin

/-!
# The removal machine delivers the rows whose key occurs in no removal table
-/

namespace Verif
open Spec

/-- A removal entry relative to the key `lo` the main side has reached. -/
def RmOk (V : View) (lo : Bytes) (e : RmEntry) : Prop :=
  Sorted e.src.rows ∧
  (e.it = none → e.finished = false) ∧
  ∀ s, e.it = some s → s.1 = V ∧
    (e.finished = true → ∀ b ∈ e.src.rows, inView V b.1 = true → lexLt b.1 lo = true) ∧
    (e.finished = false → ∃ pre v, e.src.rows = pre ++ (e.key, v) :: s.2 ∧
      ∀ x ∈ pre, lexLt x.1 lo = true)

theorem RmOk.mono {V : View} {lo lo' : Bytes} {e : RmEntry} (h : RmOk V lo e)
    (hl : lexLe lo lo' = true) : RmOk V lo' e := by
  obtain ⟨h0, h1, h2⟩ := h
  refine ⟨h0, h1, fun s hs => ?_⟩
  obtain ⟨hV, hfin, hpos⟩ := h2 s hs
  refine ⟨hV, fun hf b hb hv => lexLt_of_lt_of_le (hfin hf b hb hv) hl, fun hf => ?_⟩
  obtain ⟨pre, v, e, hp⟩ := hpos hf
  exact ⟨pre, v, e, fun x hx => lexLt_of_lt_of_le (hp x hx) hl⟩

theorem hasKey_iff {T : Table} {k : Bytes} : hasKey T k = true ↔ ∃ b ∈ T, b.1 = k := by
  simp [hasKey]

theorem hasKey_false {T : Table} {k : Bytes} (h : ∀ b ∈ T, b.1 ≠ k) : hasKey T k = false := by
  rw [← Bool.not_eq_true, hasKey_iff]
  rintro ⟨b, hb, he⟩
  exact h b hb he

/-- Seeking a removal iterator to a key and fetching: the first row of the view from the key on. -/
theorem rmFetch_spec {R : Src} (hR : Sorted R.rows) {V : View} {r : Table} {k : Bytes} (w : World)
    (hk : lexLe V.lo k = true) :
    ∃ o s' w', rmFetch R (V, r) k w = (o, s', w') ∧ Frame w w' ∧ w'.tick = w.tick ∧ s'.1 = V ∧
      match o with
      | none => ∀ b ∈ R.rows, inView V b.1 = true → lexLt b.1 k = true
      | some k' => lexLe k k' = true ∧ ∃ pre v, R.rows = pre ++ (k', v) :: s'.2 ∧
          ∀ x ∈ pre, lexLt x.1 k = true := by
  obtain ⟨pre, hB, hpre, hge⟩ := split_at hR k
  unfold rmFetch
  have hes : (R.mach).seek (V, r) k w =
      ((R.mach.seek (V, r) k w).1, (V, R.rows.dropWhile fun b => lexLt b.1 k), w) := rfl
  cases ok : (R.mach.seek (V, r) k w).1 with
  | false =>
    rw [ok] at hes
    rw [hes]
    refine ⟨none, _, _, rfl, Frame.refl _, rfl, rfl, ?_⟩
    have hemp : (R.rows.dropWhile fun b => lexLt b.1 k).filter (fun b => V.ok b.1) = [] := by
      simp only [Src.mach, curM, Bool.not_eq_eq_eq_not, Bool.not_false, Bool.and_eq_true,
        List.isEmpty_iff] at ok
      exact ok.2
    intro b hb hbv
    rw [hB] at hb
    rcases List.mem_append.1 hb with hb | hb
    · exact hpre b hb
    · have := List.filter_eq_nil_iff.1 hemp b hb
      exact absurd ((inView_iff _ _).1 hbv).2 (by simpa using this)
  | true =>
    rw [ok] at hes
    rw [hes]
    simp only
    generalize hrest : (R.rows.dropWhile fun b => lexLt b.1 k) = rest at hB hge
    generalize hw1 : (w.upd .removeStrict fun c => { c with seek := c.seek + 1 }) = w1
    have hfr : Frame w w1 := by subst hw1; exact (Frame.refl w).upd _ _
    have htk : w1.tick = w.tick := by subst hw1; rfl
    cases rest with
    | nil =>
      refine ⟨none, (V, []), w1, by simp only [Src.mach, curM], hfr, htk, rfl, ?_⟩
      intro b hb _
      rw [hB] at hb
      exact hpre b (by simpa using hb)
    | cons b rest =>
      by_cases hok : V.ok b.1 = true
      · refine ⟨some b.1, (V, rest), w1, by simp only [Src.mach, curM, hok, if_true], hfr, htk, rfl,
          hge b (by simp), pre, b.2, hB, hpre⟩
      · refine ⟨none, (V, b :: rest), w1,
          by simp only [Src.mach, curM, hok, Bool.false_eq_true, if_false], hfr, htk, rfl, ?_⟩
        intro x hx hxv
        rw [hB] at hx hR
        rcases List.mem_append.1 hx with hx | hx
        · exact hpre x hx
        · have hs : Sorted (b :: rest) := (List.pairwise_append.1 hR).2.1
          have hxo := ((inView_iff _ _).1 hxv).2
          refine absurd ?_ hok
          rcases List.mem_cons.1 hx with rfl | hx
          · exact hxo
          · exact View.ok_mono (lexLe_trans hk (hge b (by simp))) (hs.head hx) hxo

/-- The result of matching one removal entry against a key. -/
def Matches (V : View) (k : Bytes) (e : RmEntry) (w : World)
    (out : Option Bool × RmEntry × World) : Prop :=
  out.1 = some (hasKey e.src.rows k) ∧ out.2.1.src = e.src ∧ RmOk V k out.2.1 ∧
    Frame w out.2.2 ∧ out.2.2.tick = w.tick

theorem rmAdvance_ge {V : View} {k : Bytes} (hv : inView V k = true) {e : RmEntry}
    {s : View × Table} (w : World) {n : Nat} (h : RmOk V k { e with it := some s })
    (hge : e.finished = false → lexLe k e.key = true) :
    Matches V k e w (rmAdvance k (n + 1) e s w) := by
  obtain ⟨src, it, key, fin⟩ := e
  unfold rmAdvance
  obtain ⟨hs0, -, hpos⟩ := id h
  obtain ⟨hV, hfin, hpos⟩ := hpos s rfl
  simp only at hs0 hfin hpos hge
  cases fin with
  | true =>
    simp only [if_true]
    refine ⟨?_, rfl, h, Frame.refl _, rfl⟩
    simp only [hasKey_false fun b hb he => ne_of_lexLt (hfin rfl b hb (by rw [he]; exact hv)) he]
  | false =>
    obtain ⟨pre, v, hrows, hpre⟩ := hpos rfl
    simp only [Bool.false_eq_true, if_false]
    have hge := hge rfl
    cases hc : bytesCompare key k with
    | lt =>
      have := bytesCompare_lt.1 hc
      rw [lexLt_false_iff.2 hge] at this; cases this
    | gt =>
      have hgt := bytesCompare_gt.1 hc
      refine ⟨?_, rfl, h, Frame.refl _, rfl⟩
      have hno : ∀ b ∈ src.rows, b.1 ≠ k := by
        intro b hb he
        rw [hrows] at hb hs0
        rcases List.mem_append.1 hb with hb | hb
        · exact ne_of_lexLt (hpre b hb) he
        · have hs : Sorted ((key, v) :: s.2) := (List.pairwise_append.1 hs0).2.1
          rcases List.mem_cons.1 hb with rfl | hb
          · exact ne_of_lexLt hgt he.symm
          · exact ne_of_lexLt (lexLt_of_lt_of_le hgt (hs.head hb)) he.symm
      simp only [hasKey_false hno]
    | eq =>
      have he := bytesCompare_eq.1 hc
      refine ⟨?_, rfl, h, Frame.refl _, rfl⟩
      have : hasKey src.rows k = true :=
        hasKey_iff.2 ⟨(key, v), by rw [hrows]; simp, he⟩
      simp only [this]

theorem rmEntryMatch_spec {V : View} {lo k : Bytes} (hv : inView V k = true) {e : RmEntry}
    (w : World) (h : RmOk V lo e) (hlo : lexLe lo k = true) :
    Matches V k e w (rmEntryMatch V k e w) := by
  have h := h.mono hlo
  have hvlo := ((inView_iff _ _).1 hv).1
  obtain ⟨hs0, hnone, hsome⟩ := id h
  unfold rmEntryMatch
  cases hit : e.it with
  | none =>
    have hfin := hnone hit
    obtain ⟨o, s', w', heq, hfr, htk, hs'V, ho⟩ :=
      rmFetch_spec hs0 (V := V) (r := (e.src.mach.start V).2) w hvlo
    have hst : e.src.mach.start V = (V, (e.src.mach.start V).2) := rfl
    rw [hst, heq]
    cases o with
    | none =>
      refine ⟨?_, rfl, ⟨hs0, by simp, ?_⟩, hfr, htk⟩
      · simp only [hasKey_false fun b hb he => ne_of_lexLt (ho b hb (by rw [he]; exact hv)) he]
      · intro s hs
        simp only [Option.some.injEq] at hs
        subst hs
        exact ⟨hs'V, fun _ => ho, by simp⟩
    | some k' =>
      simp only
      have := rmAdvance_ge (n := e.src.rows.length + 1) (s := s') hv (e := { e with it := none, key := k' }) w'
        ⟨hs0, by simp, fun s hs => by
          simp only [Option.some.injEq] at hs
          subst hs
          obtain ⟨-, pre, v, h1, h2⟩ := ho
          exact ⟨hs'V, by simp [hfin], fun _ => ⟨pre, v, h1, h2⟩⟩⟩
        (fun _ => ho.1)
      obtain ⟨h1, h2, h3, h4, h5⟩ := this
      exact ⟨h1, h2, h3, hfr.trans h4, h5.trans htk⟩
  | some s =>
    simp only
    obtain ⟨hsV, hfin, hpos⟩ := hsome s hit
    have h' : RmOk V k { e with it := some s } := by rw [← hit]; exact h
    by_cases hcase : e.finished = false ∧ lexLt e.key k = true
    · obtain ⟨hf, hlt⟩ := hcase
      unfold rmAdvance
      simp only [hf, Bool.false_eq_true, if_false, bytesCompare_lt.2 hlt]
      obtain ⟨V', r⟩ := s
      simp only at hsV; subst hsV
      obtain ⟨o, s', w', heq, hfr, htk, hs'V, ho⟩ := rmFetch_spec hs0 (r := r) w hvlo
      rw [heq]
      cases o with
      | none =>
        refine ⟨?_, rfl, ⟨hs0, by simp, ?_⟩, hfr, htk⟩
        · simp only [hasKey_false fun b hb he => ne_of_lexLt (ho b hb (by rw [he]; exact hv)) he]
        · intro s hs
          simp only [Option.some.injEq] at hs
          subst hs
          exact ⟨hs'V, fun _ => ho, by simp⟩
      | some k' =>
        simp only
        have := rmAdvance_ge (n := e.src.rows.length) (s := s') hv (e := { e with key := k' }) w'
          ⟨hs0, by simp, fun s hs => by
            simp only [Option.some.injEq] at hs
            subst hs
            obtain ⟨-, pre, v, h1, h2⟩ := ho
            exact ⟨hs'V, by simp [hf], fun _ => ⟨pre, v, h1, h2⟩⟩⟩
          (fun _ => ho.1)
        obtain ⟨h1, h2, h3, h4, h5⟩ := this
        simp only [hf] at h1 h2 h3 h4 h5
        exact ⟨h1, h2, h3, hfr.trans h4, h5.trans htk⟩
    · refine rmAdvance_ge hv w h' fun hf => ?_
      rw [← lexLt_false_iff, ← Bool.not_eq_true]
      exact fun hlt => hcase ⟨hf, hlt⟩

theorem matchKey_spec {V : View} {lo k : Bytes} (hv : inView V k = true)
    (hlo : lexLe lo k = true) (seen es : List RmEntry) (w : World)
    (hseen : ∀ e ∈ seen, RmOk V k e ∧ hasKey e.src.rows k = false) (hes : ∀ e ∈ es, RmOk V lo e) :
    ∃ es' w', matchKey V k seen es w =
        (some (es.any fun e => hasKey e.src.rows k), es', w') ∧ (∀ e ∈ es', RmOk V k e) ∧
      (∀ R, R ∈ es'.map (·.src) ↔ R ∈ seen.map (·.src) ∨ R ∈ es.map (·.src)) ∧
      Frame w w' ∧ w'.tick = w.tick := by
  induction es generalizing seen w with
  | nil =>
    refine ⟨seen.reverse, w, rfl, ?_, ?_, Frame.refl _, rfl⟩
    · intro e he; exact (hseen e (by simpa using he)).1
    · intro R; simp
  | cons e es ih =>
    have hm := rmEntryMatch_spec hv w (hes e (by simp)) hlo
    unfold matchKey
    generalize rmEntryMatch V k e w = out at hm
    obtain ⟨res, e', w1⟩ := out
    obtain ⟨hres, hsrc, hok, hfr, htk⟩ := hm
    simp only at hres hsrc hok hfr htk
    subst hres
    cases hk : hasKey e.src.rows k with
    | true =>
      refine ⟨_, _, by simp only [List.any_cons, hk, Bool.true_or]; rfl, ?_, ?_, ?_, ?_⟩
      · intro x hx
        simp only [List.mem_cons, List.mem_append, List.mem_reverse] at hx
        rcases hx with rfl | hx | hx
        · exact hok
        · exact (hseen x hx).1
        · exact (hes x (by simp [hx])).mono hlo
      · intro R
        simp only [List.map_cons, List.map_append, List.map_reverse, List.mem_cons, List.mem_append,
          List.mem_reverse, hsrc]
        constructor
        · rintro (h | h | h) <;> simp [h]
        · rintro (h | h | h) <;> simp [h]
      · exact hfr.upd _ _
      · exact htk
    | false =>
      obtain ⟨es', w', heq, hok', hmem, hfr', htk'⟩ := ih (e' :: seen) w1
        (by
          intro x hx
          rcases List.mem_cons.1 hx with rfl | hx
          · exact ⟨hok, by rw [hsrc]; exact hk⟩
          · exact hseen x hx)
        (fun x hx => hes x (by simp [hx]))
      refine ⟨es', w', by simp only [List.any_cons, hk, Bool.false_or]; exact heq, hok', ?_,
        hfr.trans hfr', htk'.trans htk⟩
      intro R
      rw [hmem]
      simp only [List.map_cons, List.mem_cons, hsrc]
      constructor
      · rintro ((h | h) | h) <;> simp [h]
      · rintro (h | h | h) <;> simp [h]

theorem rmEntrySeek_spec {V : View} {lo k : Bytes} (hvlo : lexLe V.lo lo = true)
    (hk : lexLt lo k = true) {e : RmEntry} (w : World) (h : RmOk V lo e) :
    RmOk V k (rmEntrySeek k e w).1 ∧ (rmEntrySeek k e w).1.src = e.src ∧
      Frame w (rmEntrySeek k e w).2 ∧ (rmEntrySeek k e w).2.tick = w.tick := by
  have hle : lexLe lo k = true := lexLe_iff.2 (.inl hk)
  have h := h.mono hle
  obtain ⟨hs0, hnone, hsome⟩ := id h
  unfold rmEntrySeek
  cases hit : e.it with
  | none => exact ⟨h, rfl, Frame.refl _, rfl⟩
  | some s =>
    simp only
    split
    · obtain ⟨hsV, -, -⟩ := hsome s hit
      obtain ⟨V', r⟩ := s
      simp only at hsV; subst hsV
      obtain ⟨o, s', w', heq, hfr, htk, hs'V, ho⟩ :=
        rmFetch_spec hs0 (r := r) (k := k) w (lexLe_trans hvlo hle)
      rw [heq]
      cases o with
      | none =>
        refine ⟨⟨hs0, by simp, fun s hs => ?_⟩, rfl, hfr, htk⟩
        simp only [Option.some.injEq] at hs
        subst hs
        exact ⟨hs'V, fun _ => ho, by simp⟩
      | some k' =>
        refine ⟨⟨hs0, by simp, fun s hs => ?_⟩, rfl, hfr, htk⟩
        simp only [Option.some.injEq] at hs
        subst hs
        obtain ⟨-, pre, v, h1, h2⟩ := ho
        exact ⟨hs'V, by simp, fun _ => ⟨pre, v, h1, h2⟩⟩
    · exact ⟨h, rfl, Frame.refl _, rfl⟩

theorem rmSeekAll_spec {V : View} {lo k : Bytes} (hvlo : lexLe V.lo lo = true)
    (hk : lexLt lo k = true) (es : List RmEntry) (w : World) (hes : ∀ e ∈ es, RmOk V lo e) :
    (∀ e ∈ (rmSeekAll k es w).1, RmOk V k e) ∧
      (rmSeekAll k es w).1.map (·.src) = es.map (·.src) ∧
      Frame w (rmSeekAll k es w).2 ∧ (rmSeekAll k es w).2.tick = w.tick := by
  induction es generalizing w with
  | nil => exact ⟨by simp [rmSeekAll], rfl, Frame.refl _, rfl⟩
  | cons e es ih =>
    obtain ⟨h1, h2, h3, h4⟩ := rmEntrySeek_spec hvlo hk w (hes e (by simp))
    obtain ⟨g1, g2, g3, g4⟩ := ih (rmEntrySeek k e w).2 (fun x hx => hes x (by simp [hx]))
    refine ⟨?_, ?_, ?_, ?_⟩
    · intro x hx
      simp only [rmSeekAll, List.mem_cons] at hx
      rcases hx with rfl | hx
      · exact h1
      · exact g1 x hx
    · simp only [rmSeekAll, List.map_cons, h2, g2]
    · exact h3.trans g3
    · exact g4.trans h4

/-- The rows to come at a removal operator. -/
def RemoveR {M : Mach} (R : M.St → Bytes → Table → Prop) (rms : List Src) (V : View) (T : Table)
    (s : RemoveSt M) (lo : Bytes) (O : Table) : Prop :=
  ∃ U, R s.up lo U ∧ O = U.filter (fun kv => !rms.any fun r => hasKey r.rows kv.1) ∧ U ⊆ T ∧
    s.view = V ∧ (∀ e ∈ s.entries, RmOk V lo e) ∧ (∀ r, r ∈ s.entries.map (·.src) ↔ r ∈ rms) ∧
    lexLe V.lo lo = true

theorem any_src {es : List RmEntry} {rms : List Src} (h : ∀ r, r ∈ es.map (·.src) ↔ r ∈ rms)
    (k : Bytes) : (es.any fun e => hasKey e.src.rows k) = rms.any fun r => hasKey r.rows k := by
  rw [Bool.eq_iff_iff, List.any_eq_true, List.any_eq_true]
  constructor
  · rintro ⟨e, he, hk⟩
    exact ⟨e.src, (h _).1 (List.mem_map.2 ⟨e, he, rfl⟩), hk⟩
  · rintro ⟨r, hr, hk⟩
    obtain ⟨e, he, rfl⟩ := List.mem_map.1 ((h _).2 hr)
    exact ⟨e, he, hk⟩

theorem removeLoop_spec {M : Mach} {t : Bool} {R : M.St → Bytes → Table → Prop} (hS : Sim M t R)
    {rms : List Src} {V : View} {T : Table} (hv : ∀ x ∈ T, inView V x.1 = true)
    {n : Nat} {s : RemoveSt M} {lo : Bytes} {U : Table} (w : World) (hR : R s.up lo U)
    (hU : U ⊆ T) (hV : s.view = V) (hes : ∀ e ∈ s.entries, RmOk V lo e)
    (hmem : ∀ r, r ∈ s.entries.map (·.src) ↔ r ∈ rms) (hvlo : lexLe V.lo lo = true)
    (ha : t = true → w.armed = true) (hn : U.length < n) :
    NextSpec t lo (U.filter fun kv => !rms.any fun r => hasKey r.rows kv.1) w
      (removeLoop M n s w).1 (removeLoop M n s w).2.2
      (RemoveR R rms V T (removeLoop M n s w).2.1) := by
  induction n generalizing s lo U w with
  | zero => omega
  | succ n ih =>
    have hnext := hS.next w hR ha
    unfold removeLoop
    generalize he : M.next s.up w = r at hnext
    obtain ⟨res, s1, w1⟩ := r
    obtain ⟨hf, hn'⟩ := hnext
    rcases hn' with ⟨hr, ht, hex, lo', hle, hR'⟩ | ⟨hc, htk, hn'⟩
    · simp only at hr; subst hr
      exact ⟨hf, .inl ⟨rfl, ht, hex, lo', hle, U, hR', rfl, hU, hV, fun e he => (hes e he).mono hle,
        hmem, lexLe_trans hvlo hle⟩⟩
    rcases hn' with ⟨hr, rfl, lo', hle, hR'⟩ | ⟨kv, U', hr, rfl, hle, hR'⟩
    · simp only at hr; subst hr
      exact ⟨hf, .inr ⟨hc, htk, .inl ⟨rfl, rfl, lo', hle, [], hR', rfl, hU, hV,
        fun e he => (hes e he).mono hle, hmem, lexLe_trans hvlo hle⟩⟩⟩
    · simp only at hr hf hc htk hR'; subst hr
      have hU' : U' ⊆ T := fun x hx => hU (by simp [hx])
      obtain ⟨es', w2, heq, hok', hmem', hfr, htk2⟩ :=
        matchKey_spec (hv kv (hU (by simp))) hle [] s.entries w1 (by simp) hes
      have hmem2 : ∀ r, r ∈ es'.map (·.src) ↔ r ∈ rms := by
        intro r; rw [hmem']; simpa using hmem r
      subst hV
      simp only [heq, any_src hmem]
      have hc2 : Calm w w2 := fun i h1 h2 => hc i h1 (by rw [← htk2]; exact h2)
      have hf2 : Frame w w2 := hf.trans hfr
      cases hk : rms.any fun r => hasKey r.rows kv.1 with
      | true =>
        simp only
        rw [List.filter_cons_of_neg (by simp [hk])]
        refine NextSpec.chain hf2 hc2 hle ?_
        refine ih (s := { s with up := s1, entries := es' }) w2 hR' hU' rfl hok' hmem2
          (lexLe_trans hvlo hle) (fun h => ?_) (by simp at hn; omega)
        rw [hf2.armed]; exact ha h
      | false =>
        simp only
        refine ⟨hf2, .inr ⟨hc2, fun h => ?_, .inr ⟨kv, _, rfl, by rw [List.filter_cons_of_pos (by simp [hk])],
          hle, U', hR', rfl, hU', rfl, hok', hmem2, lexLe_trans hvlo hle⟩⟩⟩
        have := htk h
        show w.tick < w2.tick
        rw [htk2]; exact this

theorem impl_remove {M : Mach} {t : Bool} {V : View} {U : Table} (h : Impl M t V U)
    {rms : List Src} (hrms : ∀ r ∈ rms, Sorted r.rows) (hv : ∀ x ∈ U, inView V x.1 = true) :
    Impl (removeM rms M) t V (U.filter fun kv => !rms.any fun r => hasKey r.rows kv.1) := by
  obtain ⟨R, hS, h0⟩ := h
  refine ⟨RemoveR R rms V U, ⟨?_, ?_, ?_⟩, U, h0, rfl, fun _ h => h, rfl, ?_, ?_, lexLe_refl _⟩
  · rintro s lo O ⟨U', hR, rfl, -⟩
    exact Nat.le_trans (List.length_filter_le _ _) (hS.size hR)
  · rintro s lo O w ⟨U', hR, rfl, hU, hV, hes, hmem, hvlo⟩ ha
    exact removeLoop_spec hS hv w hR hU hV hes hmem hvlo ha (Nat.lt_succ_of_le (hS.size hR))
  · rintro s lo O k w ⟨U', hR, rfl, hU, hV, hes, hmem, hvlo⟩ hk
    obtain ⟨h1, h2, h3, h4⟩ := rmSeekAll_spec hvlo hk s.entries w hes
    obtain ⟨hf, htk, hRs, hfail⟩ := hS.seek k (rmSeekAll k s.entries w).2 hR hk
    have hcomm : (U'.filter fun kv => !rms.any fun r => hasKey r.rows kv.1).filter
          (fun kv => lexLe k kv.1) =
        (U'.filter fun kv => lexLe k kv.1).filter
          fun kv => !rms.any fun r => hasKey r.rows kv.1 := by
      rw [List.filter_filter, List.filter_filter]
      congr 1; funext x; exact Bool.and_comm _ _
    refine ⟨h3.trans hf, htk.trans h4, ⟨_, hRs, hcomm, fun x hx => hU (List.mem_filter.1 hx).1, hV,
      h1, ?_, lexLe_trans hvlo (lexLe_iff.2 (.inl hk))⟩, ?_⟩
    · intro r; rw [← hmem, ← h2]; rfl
    · intro hfl
      rw [hcomm, hfail hfl]; rfl
  · intro e he
    simp only [removeM, List.mem_map] at he
    obtain ⟨r, hr, rfl⟩ := he
    exact ⟨hrms r hr, by simp, by simp⟩
  · intro r; simp [removeM]

end Verif
