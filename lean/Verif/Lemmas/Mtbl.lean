import Verif.Spec.Tables
import Verif.Lemmas.Order

/-!
# Simulation between iterator machines and lists of rows
-/

namespace Verif
open Spec

/-- The parts of the world an iterator leaves alone. -/
structure Frame (w w' : World) : Prop where
  clock : w'.clock = w.clock
  deadline : w'.deadline = w.deadline
  armed : w'.armed = w.armed
  offset : w'.offset = w.offset
  tick : w.tick ≤ w'.tick

/-- No clock reading taken between two worlds reached the deadline. -/
def Calm (w w' : World) : Prop :=
  ∀ i, w.tick ≤ i → i < w'.tick → timespecGe (w.clock i) w.deadline = false

/-- The last clock reading taken reached the deadline, and no earlier one did. -/
def Expired (w w' : World) : Prop :=
  ∃ i, w'.tick = i + 1 ∧ w.tick ≤ i ∧ timespecGe (w.clock i) w.deadline = true ∧
    ∀ j, w.tick ≤ j → j < i → timespecGe (w.clock j) w.deadline = false

theorem Frame.refl (w : World) : Frame w w := ⟨rfl, rfl, rfl, rfl, Nat.le_refl _⟩

theorem Frame.trans {a b c : World} (h1 : Frame a b) (h2 : Frame b c) : Frame a c :=
  ⟨h2.clock.trans h1.clock, h2.deadline.trans h1.deadline, h2.armed.trans h1.armed,
    h2.offset.trans h1.offset, Nat.le_trans h1.tick h2.tick⟩

theorem Frame.upd {a b : World} (h : Frame a b) (g : Stage) (f : Stats → Stats) :
    Frame a (b.upd g f) := ⟨h.clock, h.deadline, h.armed, h.offset, h.tick⟩

theorem Calm.refl (w : World) : Calm w w := fun _ h1 h2 => absurd h1 (by omega)

theorem Calm.trans {a b c : World} (hf : Frame a b) (h1 : Calm a b) (h2 : Calm b c) :
    Calm a c := by
  intro i hi hc
  by_cases hb : i < b.tick
  · exact h1 i hi hb
  · have := h2 i (by omega) hc
    rwa [hf.clock, hf.deadline] at this

theorem Expired.trans {a b c : World} (hf : Frame a b) (h1 : Calm a b) (h2 : Expired b c) :
    Expired a c := by
  obtain ⟨i, e, hb, hg, hj⟩ := h2
  have := hf.tick
  refine ⟨i, e, by omega, by rwa [hf.clock, hf.deadline] at hg, fun j h3 h4 => ?_⟩
  by_cases hjb : j < b.tick
  · exact h1 j h3 hjb
  · have := hj j (by omega) h4
    rwa [hf.clock, hf.deadline] at this

/-- What a `next` call may do, when the rows still to come are `L`, in terms of its result and the
two worlds; `after lo L'` says which rows are to come afterwards. -/
def NextSpec (t : Bool) (lo : Bytes) (L : Table) (w : World) (r : Res) (w' : World)
    (after : Bytes → Table → Prop) : Prop :=
  Frame w w' ∧
  ((r = .timeout ∧ t = true ∧ Expired w w' ∧ ∃ lo', lexLe lo lo' = true ∧ after lo' L) ∨
   (Calm w w' ∧ (t = true → w.tick < w'.tick) ∧
     ((r = .done ∧ L = [] ∧ ∃ lo', lexLe lo lo' = true ∧ after lo' []) ∨
      ∃ kv L', r = .item kv ∧ L = kv :: L' ∧ lexLe lo kv.1 = true ∧ after kv.1 L')))

/-- A `next` call that first did some silent work. -/
theorem NextSpec.chain {t : Bool} {lo lo2 : Bytes} {L : Table} {w w2 w3 : World} {r : Res}
    {after : Bytes → Table → Prop} (hf : Frame w w2) (hc : Calm w w2) (hlo : lexLe lo lo2 = true)
    (h : NextSpec t lo2 L w2 r w3 after) : NextSpec t lo L w r w3 after := by
  obtain ⟨hf3, hn3⟩ := h
  refine ⟨hf.trans hf3, ?_⟩
  rcases hn3 with ⟨hr, ht, hex, lo', hl, ha⟩ | ⟨hc3, htk3, hn3⟩
  · exact .inl ⟨hr, ht, hex.trans hf hc, lo', lexLe_trans hlo hl, ha⟩
  · refine .inr ⟨hc.trans hf hc3, fun h => ?_, ?_⟩
    · have h1 := htk3 h
      have h2 := hf.tick
      omega
    · rcases hn3 with ⟨hr, hL, lo', hl, ha⟩ | ⟨kv, L', hr, hL, hl, ha⟩
      · exact .inl ⟨hr, hL, lo', lexLe_trans hlo hl, ha⟩
      · exact .inr ⟨kv, L', hr, hL, lexLe_trans hlo hl, ha⟩

/-- Weaken what holds afterwards. -/
theorem NextSpec.imp {t : Bool} {lo : Bytes} {L : Table} {w w3 : World} {r : Res}
    {P Q : Bytes → Table → Prop} (h : NextSpec t lo L w r w3 P)
    (hPQ : ∀ lo' L', lexLe lo lo' = true → P lo' L' → Q lo' L') : NextSpec t lo L w r w3 Q := by
  obtain ⟨hf3, hn3⟩ := h
  refine ⟨hf3, ?_⟩
  rcases hn3 with ⟨hr, ht, hex, lo', hl, ha⟩ | ⟨hc3, htk3, hn3⟩
  · exact .inl ⟨hr, ht, hex, lo', hl, hPQ _ _ hl ha⟩
  · refine .inr ⟨hc3, htk3, ?_⟩
    rcases hn3 with ⟨hr, hL, lo', hl, ha⟩ | ⟨kv, L', hr, hL, hl, ha⟩
    · exact .inl ⟨hr, hL, lo', hl, hPQ _ _ hl ha⟩
    · exact .inr ⟨kv, L', hr, hL, hl, hPQ _ _ hl ha⟩

/-- `R s lo L`: in state `s` the rows still to come are `L`, and seeks beyond `lo` work as expected.
`t` says whether the machine may time out. -/
structure Sim (M : Mach) (t : Bool) (R : M.St → Bytes → Table → Prop) : Prop where
  size : ∀ {s lo L}, R s lo L → L.length ≤ M.size s
  next : ∀ {s lo L} (w : World), R s lo L → (t = true → w.armed = true) →
    NextSpec t lo L w (M.next s w).1 (M.next s w).2.2 (R (M.next s w).2.1)
  seek : ∀ {s lo L} (k : Bytes) (w : World), R s lo L → lexLt lo k = true →
    Frame w (M.seek s k w).2.2 ∧ (M.seek s k w).2.2.tick = w.tick ∧
    R (M.seek s k w).2.1 k (L.filter fun kv => lexLe k kv.1) ∧
    ((M.seek s k w).1 = false → (L.filter fun kv => lexLe k kv.1) = [])

/-- An iterator opened on view `V` delivers exactly the rows `L`. -/
def Impl (M : Mach) (t : Bool) (V : View) (L : Table) : Prop :=
  ∃ R, Sim M t R ∧ R (M.start V) V.lo L

/-! ## Rows and views -/

theorem inView_iff (V : View) (x : Bytes) :
    inView V x = true ↔ lexLe V.lo x = true ∧ V.ok x = true := by
  cases V with
  | all =>
    simp only [inView, View.lo, View.ok, true_iff, and_true]
    have := lexLe_append [] x
    simpa using this
  | exact k =>
    simp only [inView, View.lo, View.ok, beq_iff_eq]
    constructor
    · rintro rfl; exact ⟨lexLe_refl _, rfl⟩
    · exact fun h => h.2
  | pfx p =>
    simp only [inView, View.lo, View.ok, List.isPrefixOf_iff_prefix]
    constructor
    · rintro ⟨s, rfl⟩; exact ⟨lexLe_append _ _, List.prefix_append _ _⟩
    · exact fun h => h.2
  | range a b => simp [inView, View.lo, View.ok]

theorem lexLe_antisymm {a b : Bytes} (h1 : lexLe a b = true) (h2 : lexLe b a = true) : a = b := by
  rcases lexLe_iff.1 h1 with h | h
  · have := lexLt_false_iff.2 h2
    rw [h] at this; cases this
  · exact h

theorem mem_takeWhile_imp {α : Type} {p : α → Bool} {l : List α} {x : α}
    (h : x ∈ l.takeWhile p) : p x = true := by
  induction l with
  | nil => simp at h
  | cons a l ih =>
    rw [List.takeWhile_cons] at h
    split at h
    · rcases List.mem_cons.1 h with rfl | h
      · assumption
      · exact ih h
    · simp at h

theorem prefix_convex {p x y : Bytes} (h1 : lexLe p x = true) (h2 : lexLe x (p ++ y) = true) :
    p <+: x := by
  induction p generalizing x with
  | nil => exact List.nil_prefix
  | cons a p ih =>
    cases x with
    | nil => simp [lexLe, lexLt] at h1
    | cons b x =>
      have h1 : lexLt (b :: x) (a :: p) = false := by simpa [lexLe] using h1
      have h2 : lexLt (a :: (p ++ y)) (b :: x) = false := by simpa [lexLe] using h2
      rw [← Bool.not_eq_true, lexLt_cons] at h1 h2
      have hab : a = b := UInt8.toNat_inj.1 (by omega)
      subst hab
      have h1' : lexLt x p = false := by simpa using h1
      have h2' : lexLt (p ++ y) x = false := by simpa using h2
      obtain ⟨s, hs⟩ := ih (x := x) (by simp [lexLe, h1']) (by simp [lexLe, h2'])
      exact ⟨s, by simp [hs]⟩

/-- Once a view rejects a key at or after its start, it rejects all later keys. -/
theorem View.ok_mono {V : View} {x y : Bytes} (hx : lexLe V.lo x = true) (hxy : lexLe x y = true)
    (hy : V.ok y = true) : V.ok x = true := by
  cases V with
  | all => rfl
  | exact k =>
    simp only [View.ok, View.lo, beq_iff_eq] at *
    subst hy; exact lexLe_antisymm hxy hx
  | pfx p =>
    simp only [View.ok, View.lo, List.isPrefixOf_iff_prefix] at *
    obtain ⟨s, rfl⟩ := hy
    exact prefix_convex hx hxy
  | range a b => exact lexLe_trans hxy hy

theorem Spec.Sorted.filter {T : Table} (h : Sorted T) (p : KV → Bool) : Sorted (T.filter p) :=
  List.Pairwise.filter _ h

theorem Spec.Sorted.tail {kv : KV} {T : Table} (h : Sorted (kv :: T)) : Sorted T :=
  (List.pairwise_cons.1 h).2

theorem Spec.Sorted.head {kv : KV} {T : Table} (h : Sorted (kv :: T)) {x : KV} (hx : x ∈ T) :
    lexLe kv.1 x.1 = true := (List.pairwise_cons.1 h).1 x hx

theorem Spec.StrictSorted.sorted {T : Table} (h : StrictSorted T) : Sorted T :=
  List.Pairwise.imp (fun h => lexLe_iff.2 (Or.inl h)) h

/-- Dropping the rows below a key of a sorted table is filtering. -/
theorem dropWhile_lt {T : Table} (h : Sorted T) (k : Bytes) :
    T.dropWhile (fun kv => lexLt kv.1 k) = T.filter fun kv => lexLe k kv.1 := by
  induction T with
  | nil => rfl
  | cons kv T ih =>
    simp only [List.dropWhile_cons, List.filter_cons]
    by_cases hk : lexLt kv.1 k = true
    · simp [hk, lexLe, ih h.tail]
    · have hk : lexLt kv.1 k = false := by simpa using hk
      simp only [hk, lexLe, Bool.false_eq_true, if_false, Bool.not_false, if_true]
      congr 1
      refine (List.filter_eq_self.2 fun x hx => ?_).symm
      have := lexLe_trans (lexLt_false_iff.1 hk) (h.head hx)
      simpa [lexLe] using this

theorem filter_ge_append {pre r : Table} {lo k : Bytes}
    (hp : ∀ x ∈ pre, lexLe x.1 lo = true) (hk : lexLt lo k = true) :
    (pre ++ r).filter (fun kv => lexLe k kv.1) = r.filter fun kv => lexLe k kv.1 := by
  rw [List.filter_append, List.filter_eq_nil_iff.2, List.nil_append]
  intro x hx
  have := lexLt_of_le_of_lt (hp x hx) hk
  simp [lexLe, this]

/-! ## Readers and mergers -/

/-- The iterator of a reader: `T` splits into rows at or below `lo` and the rest. -/
def CurR (T : Table) (V : View) (s : View × Table) (lo : Bytes) (L : Table) : Prop :=
  s.1 = V ∧ ∃ pre, T = pre ++ s.2 ∧ (∀ x ∈ pre, lexLe x.1 lo = true) ∧
    (∀ x ∈ s.2, lexLe lo x.1 = true) ∧ lexLe V.lo lo = true ∧
    L = s.2.filter fun kv => V.ok kv.1

theorem sim_cur {T : Table} (hT : Sorted T) (sf : View → Bytes → Bool) (V : View) :
    Sim (curM T sf) false (CurR T V) where
  size := by
    rintro ⟨V', r⟩ lo L ⟨-, pre, -, -, -, -, rfl⟩
    exact List.length_filter_le _ _
  next := by
    rintro ⟨V', r⟩ lo L w ⟨rfl, pre, hT', hpre, hr, hlo, rfl⟩ -
    simp only at hT' hr hlo hpre ⊢
    cases r with
    | nil =>
      refine ⟨Frame.refl _, .inr ⟨Calm.refl _, by simp, .inl ⟨rfl, rfl, lo, lexLe_refl _, ?_⟩⟩⟩
      exact ⟨rfl, pre, hT', hpre, hr, hlo, rfl⟩
    | cons kv r =>
      by_cases hok : V'.ok kv.1 = true
      · simp only [curM, hok, if_true]
        refine ⟨Frame.refl _, .inr ⟨Calm.refl _, by simp, .inr ⟨kv, r.filter fun kv => V'.ok kv.1,
          rfl, by simp [hok], hr kv (by simp), ?_⟩⟩⟩
        subst hT'
        have hs : Sorted (kv :: r) := (List.pairwise_append.1 hT).2.1
        refine ⟨rfl, pre ++ [kv], by simp, ?_, fun x hx => hs.head hx,
          lexLe_trans hlo (hr kv (by simp)), rfl⟩
        intro x hx
        rcases List.mem_append.1 hx with hx | hx
        · exact (List.pairwise_append.1 hT).2.2 x hx kv (by simp)
        · simp only [List.mem_singleton] at hx; subst hx; exact lexLe_refl _
      · simp only [curM, hok, Bool.false_eq_true, if_false]
        have hnil : (kv :: r).filter (fun kv => V'.ok kv.1) = [] := by
          refine List.filter_eq_nil_iff.2 fun x hx hxo => hok ?_
          rcases List.mem_cons.1 hx with rfl | hx
          · exact hxo
          · subst hT'
            have hs : Sorted (kv :: r) := (List.pairwise_append.1 hT).2.1
            exact View.ok_mono (lexLe_trans hlo (hr kv (by simp))) (hs.head hx) hxo
        refine ⟨Frame.refl _, .inr ⟨Calm.refl _, by simp, .inl ⟨rfl, hnil, lo, lexLe_refl _, ?_⟩⟩⟩
        exact ⟨rfl, pre, hT', hpre, hr, hlo, hnil.symm⟩
  seek := by
    rintro ⟨V', r⟩ lo L k w ⟨rfl, pre, hT', hpre, hr, hlo, rfl⟩ hk
    simp only at hT' hr hlo hpre ⊢
    have hd : T.dropWhile (fun kv => lexLt kv.1 k) = r.filter fun kv => lexLe k kv.1 := by
      rw [dropWhile_lt hT, hT', filter_ge_append hpre hk]
    have hcomm : (r.filter fun kv => V'.ok kv.1).filter (fun kv => lexLe k kv.1) =
        (r.filter fun kv => lexLe k kv.1).filter fun kv => V'.ok kv.1 := by
      rw [List.filter_filter, List.filter_filter]
      congr 1; funext x; exact Bool.and_comm _ _
    refine ⟨Frame.refl _, rfl, ?_, ?_⟩
    · refine ⟨rfl, T.takeWhile fun kv => lexLt kv.1 k, ?_, ?_, ?_, ?_, ?_⟩
      · exact (List.takeWhile_append_dropWhile).symm
      · intro x hx
        have := mem_takeWhile_imp hx
        exact lexLe_iff.2 (.inl this)
      · intro x hx
        simp only [curM, hd, List.mem_filter] at hx
        exact hx.2
      · exact lexLe_trans hlo (lexLe_iff.2 (.inl hk))
      · rw [hcomm]; simp only [curM, hd]
    · intro hf
      simp only [curM, hd, Bool.not_eq_eq_eq_not, Bool.not_false, Bool.and_eq_true,
        List.isEmpty_iff] at hf
      rw [hcomm]; exact hf.2

theorem impl_cur {T : Table} (hT : Sorted T) (sf : View → Bytes → Bool) (V : View) :
    Impl (curM T sf) false V (rowsIn T V) := by
  refine ⟨_, sim_cur hT sf V, rfl, T.takeWhile fun kv => lexLt kv.1 V.lo, ?_, ?_, ?_,
    lexLe_refl _, ?_⟩
  · exact (List.takeWhile_append_dropWhile).symm
  · intro x hx
    have := mem_takeWhile_imp hx
    exact lexLe_iff.2 (.inl this)
  · intro x hx
    simp only [curM, dropWhile_lt hT, List.mem_filter] at hx
    exact hx.2
  · simp only [curM, dropWhile_lt hT, rowsIn, List.filter_filter]
    congr 1; funext x
    rw [Bool.eq_iff_iff, inView_iff, Bool.and_eq_true]
    exact And.comm

/-! ## Timeout -/

theorem impl_timeout {M : Mach} {t : Bool} {V : View} {L : Table} (h : Impl M t V L) :
    Impl (timeoutM M) true V L := by
  obtain ⟨R, hS, h0⟩ := h
  refine ⟨R, ⟨hS.size, ?_, hS.seek⟩, h0⟩
  intro s lo L w hR ha
  have ha := ha rfl
  have hfr : Frame w { w with tick := w.tick + 1 } :=
    ⟨rfl, rfl, rfl, rfl, Nat.le_succ _⟩
  by_cases hg : timespecGe (w.clock w.tick) w.deadline = true
  · simp only [timeoutM, hg, ha, if_true]
    refine ⟨⟨rfl, rfl, ha.symm, rfl, Nat.le_succ _⟩,
      .inl ⟨rfl, rfl, ⟨w.tick, rfl, Nat.le_refl _, hg, ?_⟩, lo, lexLe_refl _, hR⟩⟩
    intro j h1 h2; omega
  · have hg : timespecGe (w.clock w.tick) w.deadline = false := by simpa using hg
    simp only [timeoutM, hg, Bool.false_eq_true, if_false]
    have hcalm : Calm w { w with tick := w.tick + 1 } := by
      intro i h1 h2
      have h2 : i < w.tick + 1 := h2
      have : i = w.tick := by omega
      rw [this]; exact hg
    obtain ⟨hf, hn⟩ := hS.next { w with tick := w.tick + 1 } hR (fun _ => ha)
    refine ⟨hfr.trans hf, ?_⟩
    rcases hn with ⟨hr, -, he, hR'⟩ | ⟨hc, -, hn⟩
    · exact .inl ⟨hr, rfl, he.trans hfr hcalm, hR'⟩
    · refine .inr ⟨hcalm.trans hfr hc, fun _ => ?_, hn⟩
      have := hf.tick
      exact Nat.lt_of_lt_of_le (Nat.lt_succ_self _) this

/-! ## Filter -/

/-- The filter function rejects, on the rows of `T`, exactly those that fail `keep`, and skips only
over such rows. -/
def Good (f : KV → Verdict) (keep : KV → Bool) (T : Table) : Prop :=
  ∀ kv ∈ T,
    match f kv with
    | .pass => keep kv = true
    | .drop => keep kv = false
    | .seekTo k => keep kv = false ∧ lexLt kv.1 k = true ∧
        ∀ x ∈ T, lexLe kv.1 x.1 = true → lexLt x.1 k = true → keep x = false
    | .stop => ∀ x ∈ T, lexLe kv.1 x.1 = true → keep x = false
    | .fault _ => False

/-- The rows to come at a filter: those of its source that pass. -/
def FilterR {M : Mach} (R : M.St → Bytes → Table → Prop) (keep : KV → Bool) (T : Table)
    (s : M.St) (lo : Bytes) (L : Table) : Prop :=
  ∃ U, R s lo U ∧ L = U.filter keep ∧ Sorted U ∧ U ⊆ T

theorem filterLoop_spec {M : Mach} {t : Bool} {R : M.St → Bytes → Table → Prop} (hS : Sim M t R)
    {f : KV → Verdict} {keep : KV → Bool} {T : Table} (hG : Good f keep T) (g : Stage)
    {n : Nat} {s : M.St} {lo : Bytes} {U : Table} (w : World) (hR : R s lo U) (hs : Sorted U)
    (hU : U ⊆ T) (ha : t = true → w.armed = true) (hn : U.length < n) :
    NextSpec t lo (U.filter keep) w (filterLoop g (pureF f) M n s w).1
      (filterLoop g (pureF f) M n s w).2.2
      (FilterR R keep T (filterLoop g (pureF f) M n s w).2.1) := by
  induction n generalizing s lo U w with
  | zero => omega
  | succ n ih =>
    have hnext := hS.next w hR ha
    unfold filterLoop
    generalize he : M.next s w = r at hnext
    obtain ⟨res, s1, w1⟩ := r
    obtain ⟨hf, hn'⟩ := hnext
    rcases hn' with ⟨hr, ht, hex, lo', hle, hR'⟩ | ⟨hc, htk, hn'⟩
    · simp only at hr; subst hr
      exact ⟨hf, .inl ⟨rfl, ht, hex, lo', hle, U, hR', rfl, hs, hU⟩⟩
    rcases hn' with ⟨hr, rfl, lo', hle, hR'⟩ | ⟨kv, U', hr, rfl, hle, hR'⟩
    · simp only at hr; subst hr
      exact ⟨hf, .inr ⟨hc, htk, .inl ⟨rfl, rfl, lo', hle, [], hR', rfl, hs, hU⟩⟩⟩
    · simp only at hr hf hc htk hR'; subst hr
      have hg := hG kv (hU (by simp))
      have hU' : U' ⊆ T := fun x hx => hU (by simp [hx])
      have hlen : U'.length < n := by simp at hn; omega
      simp only [pureF]
      -- a helper to continue after a rejected row
      have cont : ∀ (s2 : M.St) (w2 : World) (lo2 : Bytes) (U2 : Table), R s2 lo2 U2 → Sorted U2 →
          U2 ⊆ T → U2.length < n → lexLe lo lo2 = true → Frame w1 w2 → w2.tick = w1.tick →
          (kv :: U').filter keep = U2.filter keep →
          NextSpec t lo ((kv :: U').filter keep) w (filterLoop g (pureF f) M n s2 w2).1
            (filterLoop g (pureF f) M n s2 w2).2.2
            (FilterR R keep T (filterLoop g (pureF f) M n s2 w2).2.1) := by
        intro s2 w2 lo2 U2 hR2 hs2 hU2 hl2 hlo2 hf2 htick heq
        have hf12 : Frame w w2 := hf.trans hf2
        have hc12 : Calm w w2 := fun i h1 h2 => hc i h1 (by rw [← htick]; exact h2)
        have hstep := ih w2 hR2 hs2 hU2 (fun h => by rw [hf12.armed]; exact ha h) hl2
        rw [heq]
        exact hstep.chain hf12 hc12 hlo2
      cases hfk : f kv with
      | pass =>
        simp only [hfk] at hg ⊢
        refine ⟨hf, .inr ⟨hc, htk, .inr ⟨kv, U'.filter keep, rfl, by simp [hg], hle, ?_⟩⟩⟩
        exact ⟨U', hR', rfl, hs.tail, hU'⟩
      | drop =>
        simp only [hfk] at hg ⊢
        refine cont s1 _ kv.1 U' hR' hs.tail hU' hlen hle ((Frame.refl _).upd _ _) rfl ?_
        simp [hg]
      | seekTo k =>
        simp only [hfk] at hg ⊢
        obtain ⟨hkeep, hlt, hskip⟩ := hg
        obtain ⟨hfs, htks, hRs, hfail⟩ :=
          hS.seek k (w1.upd g fun c => { c with seek := c.seek + 1 }) hR' hlt
        generalize hes : M.seek s1 k (w1.upd g fun c => { c with seek := c.seek + 1 }) = rs at *
        obtain ⟨ok, s2, w2⟩ := rs
        simp only at hfs htks hRs hfail
        have heq : (kv :: U').filter keep =
            (U'.filter fun kv => lexLe k kv.1).filter keep := by
          rw [List.filter_cons_of_neg (by simp [hkeep]), List.filter_filter]
          refine List.filter_congr fun x hx => ?_
          by_cases hx2 : lexLt x.1 k = true
          · simp [hskip x (hU' hx) (hs.head hx) hx2]
          · simp [lexLe, hx2]
        have hsub : (U'.filter fun kv => lexLe k kv.1) ⊆ T :=
          fun x hx => hU' (List.mem_filter.1 hx).1
        cases ok with
        | true =>
          refine cont s2 _ k _ hRs (hs.tail.filter _) hsub ?_ ?_ ?_ htks heq
          · exact Nat.lt_of_le_of_lt (List.length_filter_le _ _) hlen
          · exact lexLe_trans hle (lexLe_iff.2 (.inl hlt))
          · exact (((Frame.refl _).upd _ _).trans hfs).upd _ _
        | false =>
          have hnil := hfail rfl
          rw [heq, hnil]
          rw [hnil] at hRs
          refine ⟨hf.trans (((Frame.refl _).upd _ _).trans hfs), .inr ⟨?_, ?_, .inl ⟨rfl, rfl, k,
            lexLe_trans hle (lexLe_iff.2 (.inl hlt)), ?_⟩⟩⟩
          · intro i h1 h2
            exact hc i h1 (by have h2 : i < w2.tick := h2; rw [htks] at h2; exact h2)
          · intro h
            have := htk h
            show w.tick < w2.tick
            rw [htks]; exact this
          · exact ⟨[], hRs, rfl, List.Pairwise.nil, by simp⟩
      | stop =>
        simp only [hfk] at hg ⊢
        have hnil : (kv :: U').filter keep = [] := by
          refine List.filter_eq_nil_iff.2 fun x hx => ?_
          have : lexLe kv.1 x.1 = true := by
            rcases List.mem_cons.1 hx with rfl | hx
            · exact lexLe_refl _
            · exact hs.head hx
          simp [hg x (hU hx) this]
        rw [hnil]
        refine ⟨hf, .inr ⟨hc, htk, .inl ⟨rfl, rfl, kv.1, hle, U', hR', ?_, hs.tail, hU'⟩⟩⟩
        refine (List.filter_eq_nil_iff.2 fun x hx => ?_).symm
        simp [hg x (hU' hx) (hs.head hx)]
      | fault e => simp only [hfk] at hg

theorem impl_filter {M : Mach} {t : Bool} {V : View} {U : Table} (h : Impl M t V U)
    (hs : Sorted U) {f : KV → Verdict} {keep : KV → Bool} (hG : Good f keep U) (g : Stage) :
    Impl (filterM g (pureF f) M) t V (U.filter keep) := by
  obtain ⟨R, hS, h0⟩ := h
  refine ⟨FilterR R keep U, ⟨?_, ?_, ?_⟩, U, h0, rfl, hs, fun _ h => h⟩
  · rintro s lo L ⟨U', hR, rfl, -, -⟩
    exact Nat.le_trans (List.length_filter_le _ _) (hS.size hR)
  · rintro s lo L w ⟨U', hR, rfl, hs', hU'⟩ ha
    exact filterLoop_spec hS hG g w hR hs' hU' ha (Nat.lt_succ_of_le (hS.size hR))
  · rintro s lo L k w ⟨U', hR, rfl, hs', hU'⟩ hk
    obtain ⟨hf, htk, hRs, hfail⟩ := hS.seek k w hR hk
    have hcomm : (U'.filter keep).filter (fun kv => lexLe k kv.1) =
        (U'.filter fun kv => lexLe k kv.1).filter keep := by
      rw [List.filter_filter, List.filter_filter]
      congr 1; funext x; exact Bool.and_comm _ _
    refine ⟨hf, htk, ⟨_, hRs, hcomm, hs'.filter _, fun x hx => hU' (List.mem_filter.1 hx).1⟩, ?_⟩
    intro hfl
    rw [hcomm, hfail hfl]; rfl

end Verif
