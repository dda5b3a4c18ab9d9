import Verif.Lemmas.Plain

/-!
# The offset stage against the same query without it
-/

namespace Verif
open Spec

/-- The row can be decoded (or is one of those whose decoding faults). -/
def Decodes (kv : KV) : Prop := entryDecode kv.1 kv.2 ≠ .fail

/-- `FILTER_SET_COND(offset > 0, filter_offset, source)`. -/
abbrev skipM (U : Mach) : Mach := filterM .filterOffset filterOffset U

/-! ## One table -/

section
variable {sk : Bool} {U : Mach} {P : Bytes → Prop} {I : U.St → Bytes → Prop} {Q : KV → Prop} {J : U.St → Prop}

theorem skip_pass {u u' : U.St} {kv : KV} (hf : Fixed (U.next u) (.item kv) u') {w : World}
    (hw : w.offset = 0) : ∃ w', w'.offset = 0 ∧ (skipM U).next u w = (.item kv, u', w') := by
  obtain ⟨w1, ho, he⟩ := hf w
  refine ⟨w1, ho.trans hw, ?_⟩
  show filterLoop _ _ U (U.size u + 1) u w = _
  simp only [filterLoop, he, filterOffset, ho, hw, Nat.lt_irrefl, gt_iff_lt, if_false]

theorem skip_done {u u' : U.St} (hf : Fixed (U.next u) .done u') (w : World) :
    ∃ w', w'.offset = w.offset ∧ (skipM U).next u w = (.done, u', w') := by
  obtain ⟨w1, ho, he⟩ := hf w
  refine ⟨w1, ho, ?_⟩
  show filterLoop _ _ U (U.size u + 1) u w = _
  simp only [filterLoop, he]

theorem skip_drop (hU : Fwd sk U P I) {u u' : U.St} {lo : Bytes} {kv : KV} (hI : I u lo)
    (hf : Fixed (U.next u) (.item kv) u') {w : World} {k : Nat} (hw : w.offset = k + 1) :
    ∃ w', w'.offset = k ∧ SameO ((skipM U).next u w) ((skipM U).next u' w') := by
  obtain ⟨w1, ho, he⟩ := hf w
  have h := hU.next w hI
  rw [he] at h
  obtain ⟨-, hI', hlt⟩ := h.2.2.2.2.2 kv rfl
  simp only at hI' hlt
  let w2 : World := ({ w1 with offset := w1.offset - 1 } : World).upd .filterOffset
    fun c => { c with filtered := c.filtered + 1 }
  have hw2 : w2.offset = k := by show w1.offset - 1 = k; omega
  refine ⟨w2, hw2, ?_⟩
  have h1 : (skipM U).next u w = filterLoop .filterOffset filterOffset U (U.size u) u' w2 := by
    show filterLoop _ _ U (U.size u + 1) u w = _
    simp only [filterLoop, he, filterOffset]
    have : w1.offset > 0 := by omega
    rw [if_pos this]
  rw [h1]
  exact filterLoop_same hU okF_offset hI' hI' (SameO.refl _) hlt (Nat.lt_succ_self _)

theorem direct_item {U : Mach} {u u' : U.St} {kv : KV} {w w' : World} (h : U.next u w = (.item kv, u', w'))
    {e : Entry} (hd : entryDecode kv.1 kv.2 = .ok e) : direct U u w = (.entry e, u', w') := by
  simp only [direct, directLoop, h, hd]

theorem direct_done {U : Mach} {u u' : U.St} {w w' : World} (h : U.next u w = (.done, u', w')) :
    direct U u w = (.failure, u', w') := by
  simp only [direct, directLoop, h]

/-- What one step of the table gives, in the three cases a run without faults can meet. -/
theorem core_step (hU : Fwd sk U P I) (hp : Plain Decodes U J) {u : U.St} {lo : Bytes} (hI : I u lo) (hJ : J u) :
    (∃ kv e u', entryDecode kv.1 kv.2 = .ok e ∧ Fixed (U.next u) (.item kv) u' ∧ I u' kv.1 ∧ J u' ∧
      U.size u' < U.size u) ∨
    (∃ u', Fixed (U.next u) .done u' ∧ (∃ lo', I u' lo') ∧ J u') ∨
    (∀ v, ∃ f, (direct U u v).1 = .fault f) := by
  obtain ⟨r, u', hJ', hq, hf⟩ := hp.next hJ
  have hn : ∀ v, ∃ v', U.next u v = (r, u', v') ∧ v'.offset = v.offset := fun v => by
    obtain ⟨v', h1, h2⟩ := hf v
    exact ⟨v', h2, h1⟩
  let w0 : World := ⟨fun _ => ⟨0, 0⟩, 0, ⟨0, 0⟩, false, 0, fun _ => {}⟩
  obtain ⟨w1, hw1, -⟩ := hn w0
  have h := hU.next w0 hI
  rw [hw1] at h
  obtain ⟨-, hnt, -, hlo, -, hitem⟩ := h
  cases r with
  | timeout => exact absurd rfl hnt
  | done => exact .inr (.inl ⟨u', hf, hlo, hJ'⟩)
  | fault f =>
    refine .inr (.inr fun v => ⟨f, ?_⟩)
    obtain ⟨v', hv, -⟩ := hn v
    simp only [direct, directLoop, hv]
  | item kv =>
    obtain ⟨-, h1, h2⟩ := hitem kv rfl
    cases hd : entryDecode kv.1 kv.2 with
    | fail => exact absurd hd (hq kv rfl)
    | fault f =>
      refine .inr (.inr fun v => ⟨f, ?_⟩)
      obtain ⟨v', hv, -⟩ := hn v
      simp only [direct, directLoop, hv, hd]
    | ok e => exact .inl ⟨kv, e, u', hd, hf, h1, hJ', h2⟩

end

/-! ## Lookups through the index -/

section
variable {sk ski : Bool} {X M : Mach} {P PX : Bytes → Prop} {I : M.St → Bytes → Prop}
  {Jx : X.St → Bytes → Prop} {q : Query} {tb : UInt8}

theorem indirect_entry {i : X.St} {s s' : M.St} {w w' : World} {e : Entry}
    (h : direct M s w = (.entry e, s', w')) :
    indirect q tb X M (i, some s) w = (.entry e, (i, some s'), w') := by
  simp only [direct] at h
  simp only [indirect, indirectLoop, h]

theorem indirect_failure (hX : Fwd ski X PX Jx) (hM : Fwd sk M P I) (ho : Opens I) {i : X.St} {lo : Bytes}
    (hi : Jx i lo) {s s' : M.St} {w w' : World} (h : direct M s w = (.failure, s', w')) :
    SameO (indirect q tb X M (i, some s) w) (indirect q tb X M (i, none) w') := by
  have hl : LookI I (none : Option M.St) := fun x hx => by cases hx
  simp only [direct] at h
  have : indirect q tb X M (i, some s) w = indirectLoop q tb X M (2 * X.size i + 2) i none w' := by
    simp only [indirect]
    show indirectLoop q tb X M ((2 * X.size i + 2) + 1) i (some s) w = _
    simp only [indirectLoop, h]
  rw [this]
  exact indirectLoop_same (fun _ => rfl) hX hM ho hi hi hl hl (SameO.refl _) (by simp [rounds]) (rounds_lt _ _)

theorem indirect_same (hX : Fwd ski X PX Jx) (hM : Fwd sk M P I) (ho : Opens I) {i : X.St} {lo lo1 lo2 : Bytes}
    (hi : Jx i lo) {s s' : M.St} (hs : I s lo1) (hs' : I s' lo2) {w w' : World}
    (h : SameO (direct M s w) (direct M s' w')) :
    SameO (indirect q tb X M (i, some s) w) (indirect q tb X M (i, some s') w') :=
  indirectLoop_same (fun _ => rfl) hX hM ho hi hi (fun x hx => by cases hx; exact ⟨_, hs⟩)
    (fun x hx => by cases hx; exact ⟨_, hs'⟩) ⟨rfl, h⟩ (rounds_lt _ _) (rounds_lt _ _)

theorem indirect_next (hX : Fwd ski X PX Jx) (hM : Fwd sk M P I) (ho : Opens I) {i i' : X.St}
    {lo : Bytes} (hi : Jx i lo) {w w' : World} {kv : KV} (h : X.next i w = (.item kv, i', w'))
    {o : Option Bytes} (hk : indirectKey q tb kv = .ok o) :
    SameO (indirect q tb X M (i, none) w) (indirect q tb X M (i', o.map fun k => M.start (.pfx k)) w') := by
  have hn := hX.next w hi
  rw [h] at hn
  obtain ⟨-, hi', hlt⟩ := hn.2.2.2.2.2 kv rfl
  simp only at hi' hlt
  have hl : LookI I (o.map fun k => M.start (.pfx k)) := fun x hx => by
    cases o with
    | none => cases hx
    | some k => cases hx; exact ho k
  have : indirect q tb X M (i, none) w =
      indirectLoop q tb X M (2 * X.size i + 2) i' (o.map fun k => M.start (.pfx k)) w' := by
    show indirectLoop q tb X M ((2 * X.size i + 2) + 1) i none w = _
    cases o <;> simp only [indirectLoop, h, hk, Option.map_none, Option.map_some]
  rw [this]
  have hh : ∀ m : Option M.St, LookI I m → HeadSame X M i' i' m m w' w' := fun m hm => by
    cases m with
    | none => exact SameO.refl _
    | some s => exact ⟨rfl, SameO.refl _⟩
  refine indirectLoop_same (fun _ => rfl) hX hM ho hi' hi' hl hl (hh _ hl) ?_ (rounds_lt _ _)
  unfold rounds
  split <;> omega

end

/-! ## Runs -/

/-- From this state on, without time limits, the calls deliver `E` and then report the end. -/
def Del (q : Query) (B : Built) (s : QSt B) (v : World) (E : List Entry) : Prop :=
  ∀ k, Returns false E (queryRun q B (List.replicate k {}) s v)

theorem Returns.congr {t : Bool} {E : List Entry} : ∀ {cs ds : List Call},
    cs.map (·.res) = ds.map (·.res) → Returns t E cs → Returns t E ds := by
  intro cs ds h hr
  induction hr generalizing ds with
  | nil => cases ds with
    | nil => exact .nil
    | cons d ds => simp at h
  | entry h1 _ ih => cases ds with
    | nil => simp at h
    | cons d ds =>
      simp only [List.map_cons, List.cons.injEq] at h
      exact .entry (h.1 ▸ h1) (ih h.2)
  | failure h1 _ ih => cases ds with
    | nil => simp at h
    | cons d ds =>
      simp only [List.map_cons, List.cons.injEq] at h
      exact .failure (h.1 ▸ h1) (ih h.2)
  | timeout h0 h1 _ ih => cases ds with
    | nil => simp at h
    | cons d ds =>
      simp only [List.map_cons, List.cons.injEq] at h
      exact .timeout h0 (h.1 ▸ h1) (ih h.2)

theorem Del.step {q : Query} {B : Built} {s : QSt B} {v : World} {E : List Entry} (h : Del q B s v E) :
    let x := queryNext { q with lim := {} } B s v
    (∃ e E', x.1 = .entry e ∧ E = e :: E' ∧ Del q B x.2.1 x.2.2 E') ∨
    (x.1 = .failure ∧ E = [] ∧ Del q B x.2.1 x.2.2 []) := by
  intro x
  have h1 : ∀ k, Returns false E (⟨{}, v, x.2.2, x.1⟩ :: queryRun q B (List.replicate k {}) x.2.1 x.2.2) :=
    fun k => h (k + 1)
  cases hx : x.1 with
  | entry e =>
    left
    cases E with
    | nil =>
      cases h1 0 with
      | failure h2 _ => simp only [hx] at h2; cases h2
      | timeout h0 _ _ => cases h0
    | cons e' E' =>
      have key : e' = e := by
        cases h1 0 with
        | entry h2 _ => simp only [hx] at h2; cases h2; rfl
        | timeout h0 _ _ => cases h0
      subst key
      refine ⟨e', E', rfl, rfl, fun k => ?_⟩
      cases h1 k with
      | entry _ h3 => exact h3
      | timeout h0 _ _ => cases h0
  | failure =>
    right
    cases E with
    | cons e' E' =>
      cases h1 0 with
      | entry h2 _ => simp only [hx] at h2; cases h2
      | timeout h0 _ _ => cases h0
    | nil =>
      refine ⟨rfl, rfl, fun k => ?_⟩
      cases h1 k with
      | failure _ h3 => exact h3
      | timeout h0 _ _ => cases h0
  | timeout =>
    cases h1 0 with
    | entry h2 _ => simp only [hx] at h2; cases h2
    | failure h2 _ => simp only [hx] at h2; cases h2
    | timeout h0 _ _ => cases h0
  | fault f =>
    cases h1 0 with
    | entry h2 _ => simp only [hx] at h2; cases h2
    | failure h2 _ => simp only [hx] at h2; cases h2
    | timeout h0 _ _ => cases h0

namespace TwinSet

/-- The same machines with the offset stage. -/
def skip (Z : TwinSet) : TwinSet :=
  { Z with
    T := skipM Z.T
    U := skipM Z.U
    fU := fwd_filter Z.fU okF_offset
    tT := twin_filter Z.fU okF_offset Z.tT }

/-- The same state, under the offset stage. -/
def put (Z : TwinSet) {V : View} {ind : Option UInt8} : QSt (Z.bU V ind) → QSt (Z.skip.bU V ind)
  | .direct u => .direct u
  | .indirect tb i m => .indirect tb i m

/-- The state-only invariants of a query state. -/
def QP (Z : TwinSet) {V : View} {ind : Option UInt8} (J : Z.U.St → Prop) (K : Z.X.St → Prop) :
    QSt (Z.bU V ind) → Prop
  | .direct u => J u
  | .indirect _ i m => K i ∧ ∀ u, m = some u → J u

theorem Del.head (Z : TwinSet) {V : View} {ind : Option UInt8} {q : Query} {u u' : QSt (Z.bU V ind)}
    {v v' : World} (hI : Z.QI u)
    (h : SameO (queryNext { q with lim := {} } (Z.bU V ind) u v) (queryNext { q with lim := {} } (Z.bU V ind) u' v'))
    {E : List Entry} (hd : Del q (Z.bU V ind) u v E) : Del q (Z.bU V ind) u' v' E :=
  fun k => Returns.congr (Z.run_head q k hI h) (hd k)

/-- Outcome of a call with the offset stage, `n` rows being left to skip and `E` left to deliver. -/
def Skips (Z : TwinSet) {V : View} {ind : Option UInt8} (q : Query) (J : Z.U.St → Prop) (K : Z.X.St → Prop)
    (E : List Entry) (n : Nat) (r : QRes) (s : QSt (Z.bU V ind)) (o : Nat) : Prop :=
  Z.QI s ∧ Z.QP J K s ∧
  ((∃ e E' v, r = .entry e ∧ E.drop n = e :: E' ∧ o = 0 ∧ Del q (Z.bU V ind) s v E') ∨
   (∃ v, r = .failure ∧ E.drop n = [] ∧ Del q (Z.bU V ind) s v []))

variable {V : View} {ind : Option UInt8} {q : Query}

theorem step_direct (Z : TwinSet) {u u' : Z.U.St} {v v' : World} {E : List Entry} {r : QRes}
    (h : Del q (Z.bU V ind) (.direct u) v E) (hx : direct Z.U u v = (r, u', v')) :
    (∃ e E', r = .entry e ∧ E = e :: E' ∧ Del q (Z.bU V ind) (.direct u') (disarm v') E') ∨
    (r = .failure ∧ E = [] ∧ Del q (Z.bU V ind) (.direct u') (disarm v') []) := by
  have h1 : queryNext { q with lim := {} } (Z.bU V ind) (.direct u) v = (r, .direct u', disarm v') :=
    congrArg (fun x => (x.1, QSt.direct (B := Z.bU V ind) x.2.1, disarm x.2.2)) hx
  have := h.step
  simp only at this
  rw [h1] at this
  exact this

theorem indirect_lim (q : Query) (l : Limits) (tb : UInt8) (X M : Mach) (s : X.St × Option M.St) (w : World) :
    indirect { q with lim := l } tb X M s w = indirect q tb X M s w := by
  have : ∀ n i m w, indirectLoop { q with lim := l } tb X M n i m w = indirectLoop q tb X M n i m w := by
    intro n
    induction n with
    | zero => intros; rfl
    | succ n ih =>
      intro i m w
      have hk : ∀ kv, indirectKey { q with lim := l } tb kv = indirectKey q tb kv := fun kv => rfl
      cases m with
      | some s => simp only [indirectLoop, ih]
      | none => simp only [indirectLoop, ih, hk]
  exact this _ _ _ _

theorem step_indirect (Z : TwinSet) {tb : UInt8} {i : Z.X.St} {m : Option Z.U.St}
    {st : Z.X.St × Option Z.U.St} {v v' : World} {E : List Entry} {r : QRes}
    (h : Del q (Z.bU V ind) (.indirect tb i m) v E) (hx : indirect q tb Z.X Z.U (i, m) v = (r, st, v')) :
    (∃ e E', r = .entry e ∧ E = e :: E' ∧ Del q (Z.bU V ind) (.indirect tb st.1 st.2) (disarm v') E') ∨
    (r = .failure ∧ E = [] ∧ Del q (Z.bU V ind) (.indirect tb st.1 st.2) (disarm v') []) := by
  rw [← indirect_lim q {}] at hx
  have h1 : queryNext { q with lim := {} } (Z.bU V ind) (.indirect tb i m) v =
      (r, .indirect tb st.1 st.2, disarm v') :=
    congrArg (fun x => (x.1, QSt.indirect (B := Z.bU V ind) tb x.2.1.1 x.2.1.2, disarm x.2.2)) hx
  have := h.step
  simp only at this
  rw [h1] at this
  exact this

theorem skip_direct (Z : TwinSet) {J : Z.U.St → Prop} {K : Z.X.St → Prop} (hp : Plain Decodes Z.U J)
    (N : Nat) : ∀ {u : Z.U.St} {lo : Bytes} {w v : World} {E : List Entry}, Z.U.size u < N → Z.I u lo → J u →
      Del q (Z.bU V ind) (.direct u) v E →
      let x := direct (skipM Z.U) u w
      Z.Skips (V := V) (ind := ind) q J K E w.offset x.1 (.direct x.2.1) x.2.2.offset := by
  induction N with
  | zero => intros; omega
  | succ N ih =>
    intro u lo w v E hN hI hJ hd
    have hs := fun r u' v' => Z.step_direct (r := r) (u' := u') (v' := v') hd
    rcases core_step Z.fU hp hI hJ with ⟨kv, e, u', hdec, hf, hI', hJ', hlt⟩ | ⟨u', hf, ⟨lo', hI'⟩, hJ'⟩ | hfault
    · obtain ⟨v', -, hv⟩ := hf v
      replace hs := hs _ _ _ (direct_item hv hdec)
      rcases hs with ⟨e', E', h1, h2, h3⟩ | ⟨h1, -⟩
      · cases h1
        subst h2
        cases hw : w.offset with
        | zero =>
          obtain ⟨w', hw', hn⟩ := skip_pass hf hw
          rw [direct_item hn hdec]
          exact ⟨⟨_, hI'⟩, hJ', .inl ⟨e, E', disarm v', rfl, rfl, hw', h3⟩⟩
        | succ k =>
          obtain ⟨w', hw', hn⟩ := skip_drop Z.fU hI hf hw
          have hsame : SameO (direct (skipM Z.U) u w) (direct (skipM Z.U) u' w') :=
            directLoop_same (fwd_filter Z.fU okF_offset) hI hI' hn (Nat.lt_succ_self _) (Nat.lt_succ_self _)
          have := ih (w := w') (by omega) hI' hJ' h3
          obtain ⟨a, b, c⟩ := hsame
          simp only at this ⊢
          rw [a, b, c]
          subst hw'
          exact this
      · cases h1
    · obtain ⟨v', -, hv⟩ := hf v
      replace hs := hs _ _ _ (direct_done hv)
      rcases hs with ⟨e', E', h1, h2, h3⟩ | ⟨-, h2, h3⟩
      · cases h1
      · obtain ⟨w', -, hn⟩ := skip_done hf w
        rw [direct_done hn]
        subst h2
        exact ⟨⟨_, hI'⟩, hJ', .inr ⟨disarm v', rfl, by simp, h3⟩⟩
    · obtain ⟨f, hf⟩ := hfault v
      replace hs := hs (direct Z.U u v).1 (direct Z.U u v).2.1 (direct Z.U u v).2.2 rfl
      rw [hf] at hs
      rcases hs with ⟨e', E', h1, -⟩ | ⟨h1, -⟩ <;> cases h1

/-- Lookups with the offset stage. -/
def indS (Z : TwinSet) (q : Query) (tb : UInt8) (s : Z.X.St × Option Z.U.St) (w : World) :
    QRes × (Z.X.St × Option Z.U.St) × World := indirect q tb Z.X (skipM Z.U) s w

theorem skip_indirect (Z : TwinSet) {J : Z.U.St → Prop} {K : Z.X.St → Prop} {QX : KV → Prop}
    (hp : Plain Decodes Z.U J) (hx : Plain QX Z.X K) (ho : Z.Op) (tb : UInt8) (N : Nat) :
    ∀ (N2 : Nat) {i : Z.X.St} {lo : Bytes} {m : Option Z.U.St} {w v : World} {E : List Entry},
      rounds Z.X i m < N → (∀ u, m = some u → Z.U.size u < N2) → Z.J i lo → LookI Z.I m → K i →
      (∀ u, m = some u → J u) → Del q (Z.bU V ind) (.indirect tb i m) v E →
      let x := Z.indS q tb (i, m) w
      Z.Skips (V := V) (ind := ind) q J K E w.offset x.1 (.indirect tb x.2.1.1 x.2.1.2) x.2.2.offset := by
  have hS : Fwd Z.sk (skipM Z.U) Z.P Z.I := fwd_filter Z.fU okF_offset
  have hoS : Opens (U := skipM Z.U) Z.I := ho.1
  have head : ∀ {a b : Z.X.St × Option Z.U.St} {v v' : World} {E : List Entry},
      (∃ lo, Z.J a.1 lo) → LookI Z.I a.2 →
      SameO (indirect q tb Z.X Z.U a v) (indirect q tb Z.X Z.U b v') →
      Del q (Z.bU V ind) (.indirect tb a.1 a.2) v E → Del q (Z.bU V ind) (.indirect tb b.1 b.2) v' E := by
    intro a b v v' E h1 h2 h3 h4
    refine Del.head Z (u := .indirect tb a.1 a.2) ⟨ho, h1, h2⟩ ?_ h4
    have h5 : SameO (indirect { q with lim := {} } tb Z.X Z.U a v) (indirect { q with lim := {} } tb Z.X Z.U b v') := by
      rw [indirect_lim q {} tb Z.X Z.U a, indirect_lim q {} tb Z.X Z.U b]; exact h3
    exact sameO_map (fun s : Z.X.St × Option Z.U.St => QSt.indirect (B := Z.bU V ind) tb s.1 s.2) h5
  induction N with
  | zero => intros; omega
  | succ N ihN =>
    intro N2
    induction N2 with
    | zero =>
      intro i lo m w v E hN hN2 hJ hl hK hJm hd
      cases m with
      | some u => exact absurd (hN2 u rfl) (by omega)
      | none =>
        have hs' := fun r st v' => Z.step_indirect (r := r) (st := st) (v' := v') hd
        obtain ⟨r, i', hK', -, hf⟩ := hx.next hK
        obtain ⟨v', -, hv⟩ := hf v
        obtain ⟨w', hw', hw⟩ := hf w
        have hn := Z.fX.next v hJ
        rw [hv] at hn
        obtain ⟨-, hnt, -, hlo', -, hitem⟩ := hn
        have hsome : ∀ u, (none : Option Z.U.St) = some u → J u := fun u hu => by cases hu
        have hnone : LookI Z.I (none : Option Z.U.St) := fun u hu => by cases hu
        cases r with
        | timeout => exact absurd rfl hnt
        | fault f =>
          rcases hs' (.fault f) (i', none) v' (by simp only [indirect, indirectLoop, hv]) with ⟨_, _, h1, -⟩ | ⟨h1, -⟩ <;> cases h1
        | done =>
          have h1 : Z.indS q tb (i, none) w = (.failure, (i', none), w') := by
            show indirectLoop _ _ _ _ (2 * Z.X.size i + 2 + 1) _ _ _ = _
            simp only [indirectLoop, hw]
            rfl
          rcases hs' .failure (i', none) v' (by simp only [indirect, indirectLoop, hv]) with ⟨_, _, h2, -⟩ | ⟨-, rfl, h2⟩
          · cases h2
          · simp only [h1]
            exact ⟨⟨ho, hlo', hnone⟩, ⟨hK', hsome⟩, .inr ⟨disarm v', rfl, by simp, h2⟩⟩
        | item kv =>
          obtain ⟨-, hi', hlt⟩ := hitem kv rfl
          simp only at hi' hlt
          cases hk : indirectKey q tb kv with
          | fault f =>
            rcases hs' (.fault f) (i', none) v' (by simp only [indirect, indirectLoop, hv, hk]) with ⟨_, _, h1, -⟩ | ⟨h1, -⟩ <;> cases h1
          | fail =>
            have h1 : Z.indS q tb (i, none) w = (.failure, (i', none), w') := by
              show indirectLoop _ _ _ _ (2 * Z.X.size i + 2 + 1) _ _ _ = _
              simp only [indirectLoop, hw, hk]
              rfl
            rcases hs' .failure (i', none) v' (by simp only [indirect, indirectLoop, hv, hk]) with ⟨_, _, h2, -⟩ | ⟨-, rfl, h2⟩
            · cases h2
            · simp only [h1]
              exact ⟨⟨ho, hlo', hnone⟩, ⟨hK', hsome⟩, .inr ⟨disarm v', rfl, by simp, h2⟩⟩
          | ok o =>
            have h1 := indirect_next (q := q) (tb := tb) Z.fX Z.fU ho.1 hJ hv hk
            have h2 : SameO (Z.indS q tb (i, none) w) (Z.indS q tb (i', o.map fun k => Z.U.start (.pfx k)) w') :=
              indirect_next (q := q) (tb := tb) Z.fX hS hoS hJ hw hk
            have hd' : Del q (Z.bU V ind) (.indirect tb i' (o.map fun k => Z.U.start (.pfx k))) v' E :=
              head (a := (i, none)) (b := (i', o.map fun k => Z.U.start (.pfx k))) ⟨_, hJ⟩ hnone h1 hd
            have hlk : LookI Z.I (o.map fun k => Z.U.start (.pfx k)) := fun u hu => by
              cases o with
              | none => cases hu
              | some k => cases hu; exact ho.1 k
            have hjk : ∀ u, (o.map fun k => Z.U.start (.pfx k)) = some u → J u := fun u hu => by
              cases o with
              | none => cases hu
              | some k => cases hu; exact hp.start _
            have := ihN (match o.map fun k => Z.U.start (.pfx k) with | some u => Z.U.size u + 1 | none => 0)
              (i := i') (m := o.map fun k => Z.U.start (.pfx k)) (w := w') (v := v') (E := E)
              (by unfold rounds at hN ⊢; simp only [Option.isSome_none] at hN; split <;> omega)
              (by cases o with
                  | none => intro u hu; cases hu
                  | some k => intro u hu; cases hu; exact Nat.lt_succ_self _) hi' hlk hK' hjk hd'
            obtain ⟨a, b, c⟩ := h2
            simp only at this ⊢
            rw [a, b, c, ← hw']
            exact this
    | succ N2 ih2 =>
      intro i lo m w v E hN hN2 hJ hl hK hJm hd
      cases m with
      | none => exact ih2 hN (fun u hu => by cases hu) hJ hl hK hJm hd
      | some u =>
        have hlt := hN2 u rfl
        obtain ⟨lu, hI⟩ := hl u rfl
        have hnone : LookI Z.I (none : Option Z.U.St) := fun u hu => by cases hu
        have hs := fun r st v' => Z.step_indirect (r := r) (st := st) (v' := v') hd
        rcases core_step Z.fU hp hI (hJm u rfl) with ⟨kv, e, u', hdec, hf, hI', hJ', hlt'⟩ | ⟨u', hf, ⟨lo', hI'⟩, hJ'⟩ | hfault
        · obtain ⟨v', -, hv⟩ := hf v
          replace hs := hs _ _ _ (indirect_entry (direct_item hv hdec))
          have hlk : LookI Z.I (some u') := fun x hx => by cases hx; exact ⟨_, hI'⟩
          have hjk : ∀ x, some u' = some x → J x := fun x hx => by cases hx; exact hJ'
          rcases hs with ⟨e', E', h1, h2, h3⟩ | ⟨h1, -⟩
          · cases h1
            subst h2
            cases hw : w.offset with
            | zero =>
              obtain ⟨w', hw', hn⟩ := skip_pass hf hw
              have h1 : Z.indS q tb (i, some u) w = (.entry e, (i, some u'), w') :=
                indirect_entry (direct_item hn hdec)
              simp only [h1]
              exact ⟨⟨ho, ⟨_, hJ⟩, hlk⟩, ⟨hK, hjk⟩, .inl ⟨e, E', disarm v', rfl, rfl, hw', h3⟩⟩
            | succ k =>
              obtain ⟨w', hw', hn⟩ := skip_drop Z.fU hI hf hw
              have hsame : SameO (direct (skipM Z.U) u w) (direct (skipM Z.U) u' w') :=
                directLoop_same hS hI hI' hn (Nat.lt_succ_self _) (Nat.lt_succ_self _)
              have h2 : SameO (Z.indS q tb (i, some u) w) (Z.indS q tb (i, some u') w') :=
                indirect_same (q := q) (tb := tb) Z.fX hS hoS hJ hI hI' hsame
              obtain ⟨a, b, c⟩ := h2
              have := ih2 (i := i) (m := some u') (w := w') (v := disarm v') (E := E')
                (by simpa [rounds] using hN) (fun x hx => by cases hx; omega) hJ hlk hK hjk h3
              simp only at this ⊢
              rw [a, b, c]
              subst hw'
              exact this
          · cases h1
        · obtain ⟨v', -, hv⟩ := hf v
          have h1 := indirect_failure (q := q) (tb := tb) Z.fX Z.fU ho.1 hJ (direct_done hv)
          obtain ⟨w', hw', hn⟩ := skip_done hf w
          have h2 : SameO (Z.indS q tb (i, some u) w) (Z.indS q tb (i, none) w') :=
            indirect_failure (q := q) (tb := tb) Z.fX hS hoS hJ (direct_done hn)
          obtain ⟨a, b, c⟩ := h2
          have hd' : Del q (Z.bU V ind) (.indirect tb i none) v' E :=
            head (a := (i, some u)) (b := (i, none)) ⟨_, hJ⟩ hl h1 hd
          have := ihN 0 (i := i) (m := none) (w := w') (v := v') (E := E)
            (by simp [rounds] at hN ⊢; omega) (fun u hu => by cases hu) hJ hnone hK (fun u hu => by cases hu) hd'
          simp only at this ⊢
          rw [a, b, c, ← hw']
          exact this
        · obtain ⟨f, hf⟩ := hfault v
          have : (indirect q tb Z.X Z.U (i, some u) v).1 = .fault f := by
            have hf' : (directLoop Z.U (Z.U.size u + 1) u v).1 = .fault f := hf
            show (indirectLoop q tb Z.X Z.U ((2 * Z.X.size i + 2) + 1) i (some u) v).1 = .fault f
            simp only [indirectLoop]
            generalize directLoop Z.U (Z.U.size u + 1) u v = y at hf' ⊢
            obtain ⟨r, s, y⟩ := y
            simp only at hf'
            subst hf'
            rfl
          replace hs := hs (indirect q tb Z.X Z.U (i, some u) v).1 (indirect q tb Z.X Z.U (i, some u) v).2.1
            (indirect q tb Z.X Z.U (i, some u) v).2.2 rfl
          rw [this] at hs
          rcases hs with ⟨e', E', h1, -⟩ | ⟨h1, -⟩ <;> cases h1

/-- A run with the offset stage, against the run without. -/
theorem skip_run (Z : TwinSet) {J : Z.U.St → Prop} {K : Z.X.St → Prop} {QX : KV → Prop}
    (hp : Plain Decodes Z.U J) (hx : Plain QX Z.X K) (ls : List Limits) :
    ∀ {s : QSt (Z.bU V ind)} {w v : World} {E : List Entry}, Z.QI s → Z.QP J K s → Del q (Z.bU V ind) s v E →
      Returns false (E.drop w.offset) (queryRun q (Z.skip.bU V ind) ls (Z.put s) w) := by
  induction ls with
  | nil => intros; exact .nil
  | cons l ls ih =>
    intro s w v E hI hP hd
    have key : ∃ s', (queryNext { q with lim := l } (Z.skip.bU V ind) (Z.put s) w).2.1 = Z.put s' ∧
        Z.Skips q J K E w.offset (queryNext { q with lim := l } (Z.skip.bU V ind) (Z.put s) w).1 s'
          (queryNext { q with lim := l } (Z.skip.bU V ind) (Z.put s) w).2.2.offset := by
      have hwo := armTimer_offset l w
      cases s with
      | direct u =>
        obtain ⟨lo, hI⟩ := hI
        have := Z.skip_direct (V := V) (ind := ind) (q := q) (K := K) hp (Z.U.size u + 1) (w := armTimer l w)
          (Nat.lt_succ_self _) hI hP hd
        rw [hwo] at this
        exact ⟨_, rfl, this⟩
      | indirect tb i m =>
        obtain ⟨ho, ⟨lo, hJ⟩, hl⟩ := hI
        have := Z.skip_indirect (V := V) (ind := ind) (q := q) hp hx ho tb (rounds Z.X i m + 1)
          (match m with | some u => Z.U.size u + 1 | none => 0) (i := i) (m := m) (w := armTimer l w)
          (Nat.lt_succ_self _)
          (by cases m with
              | none => intro u hu; cases hu
              | some k => intro u hu; cases hu; exact Nat.lt_succ_self _) hJ hl hP.1 hP.2 hd
        rw [hwo] at this
        have h3 : Z.indS q tb (i, m) (armTimer l w) = Z.indS { q with lim := l } tb (i, m) (armTimer l w) :=
          (indirect_lim q l tb Z.X (skipM Z.U) (i, m) (armTimer l w)).symm
        rw [h3] at this
        exact ⟨_, rfl, this⟩
    obtain ⟨s', h1, hI', hP', h⟩ := key
    simp only [queryRun]
    rcases h with ⟨e, E', v', hr, hE, h0, hd'⟩ | ⟨v', hr, hE, hd'⟩
    · rw [hE]
      refine .entry hr ?_
      have := ih (w := (queryNext { q with lim := l } (Z.skip.bU V ind) (Z.put s) w).2.2) hI' hP' hd'
      rw [h0] at this
      rw [h1]
      exact this
    · rw [hE]
      refine .failure hr ?_
      have := ih (w := (queryNext { q with lim := l } (Z.skip.bU V ind) (Z.put s) w).2.2) hI' hP' hd'
      rw [List.drop_nil] at this
      rw [h1]
      exact this

end TwinSet
end Verif

namespace Verif
open Spec

/-- Of the query object, the calls only use what decides about lookups. -/
theorem queryRun_congr {q q' : Query} (h : ∀ tb kv, indirectKey q tb kv = indirectKey q' tb kv) (B : Built)
    (ls : List Limits) : ∀ (s : QSt B) (w : World), queryRun q B ls s w = queryRun q' B ls s w := by
  have hl : ∀ tb n (i : B.index.St) (m : Option B.source.St) (l : Limits) w,
      indirectLoop { q with lim := l } tb B.index B.source n i m w =
        indirectLoop { q' with lim := l } tb B.index B.source n i m w := by
    intro tb n
    induction n with
    | zero => intros; rfl
    | succ n ih =>
      intro i m l w
      have hk : ∀ kv, indirectKey { q with lim := l } tb kv = indirectKey { q' with lim := l } tb kv := h tb
      cases m with
      | some s => simp only [indirectLoop, ih]
      | none => simp only [indirectLoop, ih, hk]
  induction ls with
  | nil => intros; rfl
  | cons l ls ih =>
    intro s w
    have : queryNext { q with lim := l } B s w = queryNext { q' with lim := l } B s w := by
      cases s with
      | direct s => rfl
      | indirect tb i m => simp only [queryNext, hl]
    simp only [queryRun, this, ih]

/-- With timeouts left out, a run that delivers `E` does so with them. -/
theorem Returns.timed {E : List Entry} : ∀ {cs ds : List Call},
    (cs.map (·.res)).filter (· ≠ .timeout) = ds.map (·.res) → Returns false E ds → Returns true E cs := by
  intro cs
  induction cs generalizing E with
  | nil => intros; exact .nil
  | cons c cs ih =>
    intro ds h hr
    by_cases ht : c.res = .timeout
    · rw [List.map_cons, List.filter_cons_of_neg (by simpa using ht)] at h
      exact .timeout rfl ht (ih h hr)
    · rw [List.map_cons, List.filter_cons_of_pos (by simpa using ht)] at h
      cases hr with
      | nil => simp at h
      | entry h1 h2 =>
        simp only [List.map_cons, List.cons.injEq] at h
        exact .entry (h.1.trans h1) (ih h.2 h2)
      | failure h1 h2 =>
        simp only [List.map_cons, List.cons.injEq] at h
        exact .failure (h.1.trans h1) (ih h.2 h2)
      | timeout h0 _ _ => cases h0

namespace TwinSet

/-- Without the timeout stage, the limits of the calls are without effect. -/
theorem call_lims (Z : TwinSet) {V : View} {ind : Option UInt8} (q : Query) (l l' : Limits)
    (u : QSt (Z.bU V ind)) {v v' : World} (h : Z.QI u) (hv : v.offset = v'.offset) :
    SameO (queryNext { q with lim := l } (Z.bU V ind) u v) (queryNext { q with lim := l' } (Z.bU V ind) u v') := by
  have hv2 : (armTimer l v).offset = (armTimer l' v').offset := by
    rw [armTimer_offset, armTimer_offset, hv]
  cases u with
  | direct u =>
    obtain ⟨lo, hI⟩ := h
    have := directLoop_same Z.fU hI hI (Z.fU.steady hI hv2) (Nat.lt_succ_self _) (Nat.lt_succ_self _)
    exact sameO_map (QSt.direct (B := Z.bU V ind)) this
  | indirect tb i m =>
    obtain ⟨ho, ⟨lo, hJ⟩, hm⟩ := h
    have hs : HeadSame Z.X Z.U i i m m (armTimer l v) (armTimer l' v') := by
      cases m with
      | none => exact Z.fX.steady hJ hv2
      | some s =>
        obtain ⟨lo, hI⟩ := hm s rfl
        exact ⟨rfl, directLoop_same Z.fU hI hI (Z.fU.steady hI hv2) (Nat.lt_succ_self _) (Nat.lt_succ_self _)⟩
    have := indirectLoop_same (q := { q with lim := l }) (q' := { q with lim := l' }) (tb := tb) (fun _ => rfl)
      Z.fX Z.fU ho.1 hJ hJ hm hm hs (rounds_lt _ _) (rounds_lt _ _)
    exact sameO_map (fun s => QSt.indirect (B := Z.bU V ind) tb s.1 s.2) this

theorem run_lims (Z : TwinSet) {V : View} {ind : Option UInt8} (q : Query) (ls : List Limits) :
    ∀ {u : QSt (Z.bU V ind)} {v v' : World}, Z.QI u → v.offset = v'.offset →
      (queryRun q (Z.bU V ind) ls u v).map (·.res) =
        (queryRun q (Z.bU V ind) (List.replicate ls.length {}) u v').map (·.res) := by
  induction ls with
  | nil => intros; rfl
  | cons l ls ih =>
    intro u v v' hI hv
    obtain ⟨h1, h2, h3⟩ := Z.call_lims q l {} u hI hv
    have hI' := (Z.call_fwd { q with lim := l } u v hI).1
    simp only [List.length_cons, List.replicate_succ, queryRun, List.map_cons]
    rw [h1]
    congr 1
    rw [ih hI' h3, h2]

end TwinSet

/-- The machines of a query with and without time limits, with and without offset. -/
theorem assembledO {q : Query} {p : Plan} (hp : PlanOk p) {T Ti : Table} (hT : Sorted T) (hTi : Sorted Ti)
    (sf sfi : View → Bytes → Bool) (rm : Option (List Src)) (fill : Option Src)
    (hdec : ∀ kv ∈ T, Decodes kv)
    (hfill : ∀ F, fill = some F → ∀ k a b v, Decodes (k, a) → (k, b) ∈ F.rows → mergeFunc k a b = .ok v →
      Decodes (k, v)) :
    ∃ (Z : TwinSet) (J : Z.U.St → Prop) (K : Z.X.St → Prop) (QX : KV → Prop),
      Plain Decodes Z.U J ∧ Plain QX Z.X K ∧
      (∀ l : Limits, l.active = true →
        assemble { q with offset := 0, lim := l } ⟨curM T sf, curM Ti sfi, rm, fill⟩ p = Z.bT p.view p.indirect ∧
        ∀ n, assemble { q with offset := n + 1, lim := l } ⟨curM T sf, curM Ti sfi, rm, fill⟩ p =
          Z.skip.bT p.view p.indirect) ∧
      (∀ l : Limits, l.active = false →
        assemble { q with offset := 0, lim := l } ⟨curM T sf, curM Ti sfi, rm, fill⟩ p = Z.bU p.view p.indirect ∧
        ∀ n, assemble { q with offset := n + 1, lim := l } ⟨curM T sf, curM Ti sfi, rm, fill⟩ p =
          Z.skip.bU p.view p.indirect) ∧
      Z.QI (Z.bU p.view p.indirect).start ∧ Z.QP J K (Z.bU p.view p.indirect).start ∧
      Z.QR (Z.bT p.view p.indirect).start (Z.bU p.view p.indirect).start ∧
      Z.skip.QI (Z.skip.bU p.view p.indirect).start ∧
      Z.skip.QR (Z.skip.bT p.view p.indirect).start (Z.skip.bU p.view p.indirect).start ∧
      Z.put (Z.bU p.view p.indirect).start = (Z.skip.bU p.view p.indirect).start := by
  obtain ⟨I, R, f1, t1, s1⟩ : Paired false (planViews p) (ViewKeys T (planViews p))
      (withTimes q rm fill (withFilters p.onSource (timeoutM (curM T sf))))
      (withTimes q rm fill (withFilters p.onSource (curM T sf))) :=
    ((paired_cur hT sf (planViews p)).filters (hp.source T)).times q rm fill
  obtain ⟨Jx, K, f2, t2, s2⟩ : Paired true (· = p.view) (ViewKeys Ti (· = p.view))
      (withFilters p.onIndex (timeoutM (curM Ti sfi))) (withFilters p.onIndex (curM Ti sfi)) :=
    (paired_cur hTi sfi (· = p.view)).filters (hp.index Ti)
  obtain ⟨J, hJ⟩ : IsPlain Decodes (withTimes q rm fill (withFilters p.onSource (curM T sf))) := by
    have h0 : IsPlain Decodes (curM T sf) := by
      obtain ⟨J, h⟩ := plain_cur T sf
      exact ⟨J, h.weaken hdec⟩
    exact (h0.filters p.onSource).times q rm fill hfill
  obtain ⟨KX, hKX⟩ : IsPlain (· ∈ Ti) (withFilters p.onIndex (curM Ti sfi)) := (plain_cur Ti sfi).filters p.onIndex
  have hw : ∀ (q' : Query) M, q'.bounds = q.bounds → withTimes q' rm fill M = withTimes q rm fill M := by
    intro q' M h
    simp only [withTimes, h]
  refine ⟨{ fU := f1, fX := f2, tT := t1, tY := t2, .. }, J, KX, (· ∈ Ti), hJ, hKX, ?_, ?_, ?_, ?_, ?_, ?_, ?_, ?_⟩
  · intro l hl
    refine ⟨?_, fun n => ?_⟩
    · simp only [assemble, TwinSet.bT, withTimeout, hl, if_true]
      rfl
    · simp only [assemble, TwinSet.bT, withTimeout, hl, if_true]
      rfl
  · intro l hl
    refine ⟨?_, fun n => ?_⟩
    · simp only [assemble, TwinSet.bU, withTimeout, hl]
      rfl
    · simp only [assemble, TwinSet.bU, withTimeout, hl]
      rfl
  all_goals unfold Built.start
  all_goals cases hi : p.indirect with
    | none => ?_
    | some tb => ?_
  · exact (s1 p.view fun _ => rfl).1
  · have hpv : ∀ V, planViews p V := fun V h => by rw [hi] at h; cases h
    exact ⟨⟨fun k => (s1 _ (hpv _)).1, fun k => (s1 _ (hpv _)).2⟩, (s2 p.view rfl).1, fun x hx => by cases hx⟩
  · exact hJ.start _
  · exact ⟨hKX.start _, fun u hu => by cases hu⟩
  · exact (s1 p.view fun _ => rfl).2
  · exact ⟨rfl, (s2 p.view rfl).2, trivial⟩
  · exact (s1 p.view fun _ => rfl).1
  · have hpv : ∀ V, planViews p V := fun V h => by rw [hi] at h; cases h
    exact ⟨⟨fun k => (s1 _ (hpv _)).1, fun k => (s1 _ (hpv _)).2⟩, (s2 p.view rfl).1, fun x hx => by cases hx⟩
  · exact (s1 p.view fun _ => rfl).2
  · exact ⟨rfl, (s2 p.view rfl).2, trivial⟩
  · rfl
  · rfl

end Verif
