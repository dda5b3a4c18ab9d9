import Verif.Lemmas.QueryRun
import Verif.Lemmas.Entry
import Verif.Spec.Store

/-!
# Lemmas: the stages of a query over a plain table
-/

namespace Verif
open Spec

/-- Whether a filter function accepts a row. -/
def passes (f : KV → Verdict) (kv : KV) : Bool := decide (f kv = .pass)

theorem verdictOf_ok (b : Bool) : verdictOf (.ok b) = if b then .pass else .drop := by cases b <;> rfl

theorem Good.mono {f : KV → Verdict} {keep : KV → Bool} {T U : Table} (h : Good f keep T) (hs : U ⊆ T) :
    Good f keep U := by
  intro kv hkv
  have := h kv (hs hkv)
  cases hf : f kv with
  | pass => simpa only [hf] using this
  | drop => simpa only [hf] using this
  | seekTo k =>
    simp only [hf] at this ⊢
    exact ⟨this.1, this.2.1, fun x hx => this.2.2 x (hs hx)⟩
  | stop => simp only [hf] at this ⊢; exact fun x hx => this x (hs hx)
  | fault e => simp only [hf] at this

/-- A filter that only accepts and rejects. -/
theorem good_verdictOf {m : KV → Out Bool} {T : Table} (h : ∀ kv ∈ T, ∃ b, m kv = .ok b) :
    Good (fun kv => verdictOf (m kv)) (passes fun kv => verdictOf (m kv)) T := by
  intro kv hkv
  obtain ⟨b, hb⟩ := h kv hkv
  cases b <;> simp [hb, verdictOf, passes]

/-- Every filter is good on the rows its predecessors let through. -/
def GoodSeq : List Filt → Table → Prop
  | [], _ => True
  | f :: fs, U => Good f.2 (passes f.2) U ∧ GoodSeq fs (U.filter (passes f.2))

theorem GoodSeq.of_all {fs : List Filt} {U : Table} (h : ∀ f ∈ fs, Good f.2 (passes f.2) U) : GoodSeq fs U := by
  induction fs generalizing U with
  | nil => trivial
  | cons f fs ih =>
    exact ⟨h f List.mem_cons_self, ih fun g hg =>
      (h g (List.mem_cons_of_mem _ hg)).mono List.filter_sublist.subset⟩

theorem impl_filters {M : Mach} {t : Bool} {V : View} {fs : List Filt} {U : Table} (h : Impl M t V U)
    (hs : Sorted U) (hG : GoodSeq fs U) :
    Impl (withFilters fs M) t V (U.filter fun kv => fs.all fun f => passes f.2 kv) := by
  induction fs generalizing M U with
  | nil =>
    have e : U.filter (fun kv => ([] : List Filt).all fun f => passes f.2 kv) = U :=
      List.filter_eq_self.2 fun _ _ => rfl
    rw [e]; exact h
  | cons f fs ih =>
    have h1 := impl_filter h hs hG.1 f.1
    have h2 := ih h1 (hs.filter _) hG.2
    rw [List.filter_filter] at h2
    have e : (fun kv => (f :: fs).all fun g => passes g.2 kv) =
        fun kv => (fs.all fun g => passes g.2 kv) && passes f.2 kv := by
      funext kv; simp [Bool.and_comm]
    rw [e]; exact h2

theorem impl_withTimeout {q : Query} {M : Mach} {V : View} {L : Table} (h : Impl M false V L) :
    Impl (withTimeout q M) q.lim.active V L := by
  unfold withTimeout
  split
  · rename_i ha; rw [ha]; exact impl_timeout h
  · rename_i ha; rw [Bool.not_eq_true] at ha; rw [ha]; exact h

/-- Whether a row passes the time filter, if there is one. -/
def timePass (b : Bounds) (kv : KV) : Bool := !b.any || passes (filterTime b false) kv

theorem timeMatch_ok {val : Bytes} (h : (tripletUnpack val).safe) (b : Bounds) (p : Bool) :
    ∃ r, timeMatch b p val = .ok r := by
  unfold timeMatch
  cases ht : tripletUnpack val with
  | fault f => rw [ht] at h; exact h.elim
  | fail => exact ⟨_, rfl⟩
  | ok x =>
    obtain ⟨f, l, c⟩ := x
    simp only
    repeat' split
    all_goals exact ⟨_, rfl⟩

/-- The prefilter lets through whatever the final time filter lets through. -/
theorem timeMatch_pre {val : Bytes} {b : Bounds} (h : timeMatch b false val = .ok true) :
    timeMatch b true val = .ok true := by
  unfold timeMatch at h ⊢
  cases ht : tripletUnpack val with
  | fault f => rw [ht] at h; cases h
  | fail => rw [ht] at h; cases h
  | ok x =>
    obtain ⟨f, l, c⟩ := x
    rw [ht] at h
    simp only at h ⊢
    repeat' split at h
    all_goals simp_all

theorem passes_verdictOf {m : KV → Out Bool} {kv : KV} :
    passes (fun kv => verdictOf (m kv)) kv = decide (m kv = .ok true) := by
  unfold passes
  rcases h : m kv with (_ | _) | _ | _ <;> simp [verdictOf, h]

theorem passes_filterTime (b : Bounds) (p : Bool) (kv : KV) :
    passes (filterTime b p) kv = decide (timeMatch b p kv.2 = .ok true) :=
  passes_verdictOf (m := fun kv => timeMatch b p kv.2)

/-- Everything below the offset stage, for a query without removal and fill sources. -/
theorem impl_core {q : Query} {p : Plan} {M : Mach} {I : Mach} {V : View} {U : Table}
    (h : Impl M false V U) (hs : Sorted U)
    (hG : GoodSeq p.onSource U)
    (hT : q.bounds.any = true → ∀ kv ∈ U, (tripletUnpack kv.2).safe) :
    Impl (coreM q ⟨M, I, none, none⟩ p) q.lim.active V
      (U.filter fun kv => (p.onSource.all fun f => passes f.2 kv) && timePass q.bounds kv) := by
  have h1 := impl_filters (impl_withTimeout (q := q) h) hs hG
  unfold coreM withTimes withFill withRemove
  simp only
  by_cases hb : q.bounds.any = true
  · rw [if_pos hb]
    have g : ∀ pre T, T ⊆ U → Good (filterTime q.bounds pre) (passes (filterTime q.bounds pre)) T :=
      fun pre T hT' => good_verdictOf (m := fun kv => timeMatch q.bounds pre kv.2)
        (fun kv hkv => timeMatch_ok (hT hb kv (hT' hkv)) _ _)
    have h2 := impl_filter h1 (hs.filter _) (g true _ List.filter_sublist.subset) .filterTimePrefilter
    have h3 := impl_filter h2 ((hs.filter _).filter _)
      (g false _ (fun x hx => (List.mem_filter.1 (List.mem_filter.1 hx).1).1)) .filterTime
    rw [List.filter_filter, List.filter_filter] at h3
    have e : (fun kv => (p.onSource.all fun f => passes f.2 kv) && timePass q.bounds kv) =
        fun kv => passes (filterTime q.bounds false) kv && passes (filterTime q.bounds true) kv &&
          p.onSource.all fun f => passes f.2 kv := by
      funext kv
      rw [timePass, hb, passes_filterTime, passes_filterTime]
      cases hm : decide (timeMatch q.bounds false kv.2 = .ok true) with
      | false => simp
      | true =>
        have := timeMatch_pre (of_decide_eq_true hm)
        simp [this]
    rw [e]; exact h3
  · rw [if_neg hb]
    have e : (fun kv => (p.onSource.all fun f => passes f.2 kv) && timePass q.bounds kv) =
        fun kv => p.onSource.all fun f => passes f.2 kv := by
      funext kv; simp [timePass, hb]
    rw [e]; exact h1

/-! ## Records -/

theorem Spec.Rec.decode {x : Rec} (h : x.legal) : entryDecode x.key x.value = .ok x.entry := by
  cases x with
  | rrset r o =>
    simp only [Rec.key, Rec.value, RRset.key, entryDecode]
    rw [if_pos (by rfl), decodeRrset_key h.1]
    simp only [Out.ok_bind]
    rw [decodeValTriplet_value _ h.2]; rfl
  | rr r o =>
    simp only [Rec.key, Rec.value, RR.key, entryDecode]
    rw [if_neg (by decide), if_neg (by decide), if_pos (by rfl), decodeRdata_key h.1]
    simp only [Out.ok_bind]
    rw [decodeValTriplet_value _ h.2]; rfl
  | fwd n s =>
    simp only [Rec.key, Rec.value, fwdIndexKey, entryDecode]
    rw [if_neg (by decide), if_pos (by rfl)]
    simp only [decodeRrsetNameFwd, Rec.entry, List.length_pos_iff, ne_eq, ite_not]
    rfl
  | rev n s =>
    simp only [Rec.key, Rec.value, revIndexKey, entryDecode]
    rw [if_neg (by decide), if_neg (by decide), if_neg (by decide), if_pos (by rfl)]
    simp only [decodeRdataNameRev, reverseName_wire (legalLabels_reverse.mpr h.1.1), List.reverse_reverse,
      Out.ok_bind, Rec.entry, List.length_pos_iff, ne_eq, ite_not]
    rfl
  | timeRange a b =>
    simp only [Rec.key, Rec.value, entryDecode]
    rw [if_neg (by decide), if_neg (by decide), if_neg (by decide), if_neg (by decide), if_pos (by rfl)]
    rw [← pairPack_eq]
    simp only [decodeTimeRange, pairUnpack_pack h.1 h.2, Out.ok_bind]; rfl
  | version t v =>
    simp only [Rec.key, Rec.value, entryDecode]
    rw [if_neg (by decide), if_neg (by decide), if_neg (by decide), if_neg (by decide), if_neg (by decide),
      if_neg (by decide), if_pos (by rfl)]
    have := decode32_leb h []
    rw [List.append_nil] at this
    have h0 := leb_length_pos v
    simp only [decodeVersion, this, Out.ok_bind]
    rw [if_neg (by omega)]
    simp; rfl
  | sourceInfo s =>
    simp only [Rec.key, Rec.value, entryDecode]
    rw [if_neg (by decide), if_neg (by decide), if_neg (by decide), if_neg (by decide), if_neg (by decide),
      if_pos (by rfl)]
    rfl

theorem decodeRow_row {x : Rec} (h : x.legal) : decodeRow x.row = some x.entry := by
  simp [decodeRow, Rec.row, Rec.decode h]

theorem safeRows_rows {Ts : List Rec} (h : ∀ x ∈ Ts, x.legal) : SafeRows (Ts.map Rec.row) := by
  intro kv hkv
  obtain ⟨x, hx, rfl⟩ := List.mem_map.1 hkv
  simp only [Rec.row, Rec.decode (h x hx)]; trivial

theorem filterMap_rows {Ts : List Rec} (h : ∀ x ∈ Ts, x.legal) :
    (Ts.map Rec.row).filterMap decodeRow = Ts.map Rec.entry := by
  induction Ts with
  | nil => rfl
  | cons x Ts ih =>
    rw [List.map_cons, List.filterMap_cons, decodeRow_row (h x List.mem_cons_self),
      ih fun y hy => h y (List.mem_cons_of_mem _ hy)]
    rfl

theorem filter_rows (Ts : List Rec) (f : KV → Bool) :
    (Ts.map Rec.row).filter f = (Ts.filter fun x => f x.row).map Rec.row := by
  induction Ts with
  | nil => rfl
  | cons x Ts ih =>
    simp only [List.map_cons, List.filter_cons, ih]
    split <;> simp

/-- Only RRset and rdata records carry times. -/
def timed : Rec → Bool
  | .rrset _ _ | .rr _ _ => true
  | _ => false

theorem timed_unpack {x : Rec} (h : x.legal) (ht : timed x = true) : (tripletUnpack x.value).safe := by
  cases x with
  | rrset r o =>
    simp only [Rec.value, Obs.value_eq, tripletUnpack_pack h.2.1 h.2.2.1 h.2.2.2]; trivial
  | rr r o =>
    simp only [Rec.value, Obs.value_eq, tripletUnpack_pack h.2.1 h.2.2.1 h.2.2.2]; trivial
  | _ => cases ht

theorem timeMatch_value {o : Obs} (h : o.legal) (b : Bounds) :
    timeMatch b false o.value = .ok (inBounds b o) := by
  unfold timeMatch inBounds
  rw [Obs.value_eq, tripletUnpack_pack h.1 h.2.1 h.2.2]
  rcases b with ⟨_ | a, _ | b, _ | c, _ | d⟩ <;>
    simp only [Option.any, Option.all, Bool.false_eq_true, if_false, decide_eq_true_eq, Bool.true_and,
      Bool.and_true] <;>
    (repeat' split) <;> simp <;> omega

theorem timePass_row {x : Rec} {o : Obs} (h : o.legal) (hv : x.value = o.value) (b : Bounds) :
    timePass b x.row = inBounds b o := by
  unfold timePass
  rw [passes_filterTime]
  simp only [Rec.row, hv, timeMatch_value h]
  by_cases hb : b.any = true
  · simp [hb]
  · rcases b with ⟨_ | a, _ | b, _ | c, _ | d⟩ <;> simp_all [Bounds.any, inBounds]

/-- Rows of a lookup in a stored table. -/
theorem stored_core {Ts : List Rec} (hS : Stored Ts) {q : Query} {p : Plan} {V : View}
    (sf : View → Bytes → Bool) (I : Mach) (hG : GoodSeq p.onSource (rowsIn (rowsOf Ts) V))
    (hT : q.bounds.any = true → ∀ x ∈ Ts, inView V x.key = true → timed x = true) :
    Impl (coreM q ⟨curM (rowsOf Ts) sf, I, none, none⟩ p) q.lim.active V
      ((Ts.filter fun x => inView V x.key &&
        ((p.onSource.all fun f => passes f.2 x.row) && timePass q.bounds x.row)).map Rec.row) := by
  have hR := impl_cur hS.sorted sf V
  have h1 := impl_core (q := q) (I := I) hR (hS.sorted.filter _) hG (by
    intro hb kv hkv
    obtain ⟨h1, h2⟩ := List.mem_filter.1 hkv
    obtain ⟨x, hx, rfl⟩ := List.mem_map.1 h1
    exact timed_unpack (hS.legal x hx) (hT hb x hx h2))
  have e : (rowsIn (rowsOf Ts) V).filter (fun kv => (p.onSource.all fun f => passes f.2 kv) &&
      timePass q.bounds kv) = (Ts.filter fun x => inView V x.key &&
        ((p.onSource.all fun f => passes f.2 x.row) && timePass q.bounds x.row)).map Rec.row := by
    rw [rowsIn, List.filter_filter, rowsOf, filter_rows]
    congr 1
    apply List.filter_congr
    intro x hx
    rw [Bool.and_comm]; rfl
  change Impl _ _ _ ((rowsIn (rowsOf Ts) V).filter _) at h1
  rwa [e] at h1

/-- The filter looks at keys only. -/
def KeyOnly (f : KV → Verdict) : Prop := ∀ k v v', f (k, v) = f (k, v')

theorem keyOnly_append {fs gs : List Filt} (hf : ∀ f ∈ fs, KeyOnly f.2) (hg : ∀ f ∈ gs, KeyOnly f.2) :
    ∀ f ∈ fs ++ gs, KeyOnly f.2 :=
  fun f h => (List.mem_append.1 h).elim (hf f) (hg f)

theorem keyOnly_filtIf {c : Bool} {f : Filt} (h : KeyOnly f.2) : ∀ g ∈ filtIf c f, KeyOnly g.2 := by
  intro g hg
  unfold filtIf at hg
  split at hg
  · rw [List.mem_singleton.1 hg]; exact h
  · cases hg

theorem keyOnly_rrtypeIf (q : Query) : ∀ f ∈ rrtypeIf q, KeyOnly f.2 := keyOnly_filtIf fun _ _ _ => rfl

theorem keyOnly_bailiwickIf (q : Query) : ∀ f ∈ bailiwickIf q, KeyOnly f.2 := by
  intro f hf
  unfold bailiwickIf at hf
  split at hf
  · rw [List.mem_singleton.1 hf]; exact fun _ _ _ => rfl
  · cases hf

theorem keyOnly_singleLabelIf (plus : Bool) (key : Bytes) : ∀ f ∈ singleLabelIf plus key, KeyOnly f.2 :=
  keyOnly_filtIf fun _ _ _ => rfl

theorem keyOnly_rdataNameFilter (q : Query) : KeyOnly (rdataNameFilter q).2 := by
  unfold rdataNameFilter
  split <;> exact fun _ _ _ => rfl

theorem keyOnly_one {f : Filt} (h : KeyOnly f.2) : ∀ g ∈ [f], KeyOnly g.2 := by
  intro g hg
  rw [List.mem_singleton.1 hg]; exact h

/-- Behind all filters, the sources deliver the records of `Ts` that pass them, whatever plan the query follows. -/
def Offers (Ts : List Rec) (q : Query) (S : Sources) : Prop :=
  ∀ (p : Plan) (V : View), (∀ f ∈ p.onSource, KeyOnly f.2) → GoodSeq p.onSource (rowsIn (rowsOf Ts) V) →
    (∀ x ∈ Ts, inView V x.key = true → timed x = true) →
    Impl (coreM q S p) q.lim.active V
      ((Ts.filter fun x => inView V x.key &&
        ((p.onSource.all fun f => passes f.2 x.row) && timePass q.bounds x.row)).map Rec.row)

/-- The source of index entries delivers those of `Xs`. -/
def Lists (Xs : List Rec) (q : Query) (S : Sources) : Prop :=
  ∀ V, Impl (withTimeout q S.index) q.lim.active V (rowsIn (rowsOf Xs) V)

theorem offers_plain {Ts : List Rec} (hS : Stored Ts) (q : Query) (sf : View → Bytes → Bool) :
    Offers Ts q (plainSources (curM (rowsOf Ts) sf)) :=
  fun _ _ _ hG hT => stored_core hS sf _ hG fun _ => hT

theorem lists_plain {Ts : List Rec} (hS : Stored Ts) (q : Query) (sf : View → Bytes → Bool) :
    Lists Ts q (plainSources (curM (rowsOf Ts) sf)) :=
  fun V => impl_withTimeout (impl_cur hS.sorted sf V)

/-- A direct query, given what its view and filters do with the records. -/
theorem offered_direct {Ts : List Rec} (hS : Stored Ts) {q : Query} {S : Sources} (hO : Offers Ts q S)
    {p : Plan} (hp : p.indirect = none) {want : Rec → Bool} (hK : ∀ f ∈ p.onSource, KeyOnly f.2)
    (hG : GoodSeq p.onSource (rowsIn (rowsOf Ts) p.view))
    (hT : ∀ x ∈ Ts, inView p.view x.key = true → timed x = true)
    (hw : ∀ x ∈ Ts, want x = (inView p.view x.key &&
      ((p.onSource.all fun f => passes f.2 x.row) && timePass q.bounds x.row)))
    (ls : List Limits) (hl : q.lim.active = true → ∀ l ∈ ls, l.active = true) {w : World}
    (ho : w.offset = q.offset) :
    let B := assemble q S p
    Returns q.lim.active (((Ts.filter want).drop q.offset).map Rec.entry) (queryRun q B ls B.start w) ∧
    ∀ c ∈ queryRun q B ls B.start w, Timely c := by
  intro B
  have h1 := hO p p.view hK hG hT
  have hleg : ∀ x ∈ Ts.filter want, x.legal := fun x hx => hS.legal x (List.mem_filter.1 hx).1
  rw [← List.filter_congr hw] at h1
  have := query_direct (S := S) hp h1 (safeRows_rows hleg) ls hl ho
  rw [← List.map_drop, filterMap_rows (fun x hx => hleg x (List.mem_of_mem_drop hx))] at this
  exact this

theorem flatMap_congr_mem {α β : Type} {l : List α} {f g : α → List β} (h : ∀ x ∈ l, f x = g x) :
    l.flatMap f = l.flatMap g := by
  induction l with
  | nil => rfl
  | cons a l ih =>
    rw [List.flatMap_cons, List.flatMap_cons, h a (by simp), ih fun x hx => h x (by simp [hx])]

/-- An indirect query: `E x` are the records delivered for the index entry `x`. -/
theorem offered_indirect {Ts Xs : List Rec} (hS : Stored Ts) (hX : Stored Xs) {q : Query} {S : Sources}
    (hO : Offers Ts q S) (hX' : Lists Xs q S) {p : Plan} {tb : UInt8}
    (hp : p.indirect = some tb) (hK : ∀ f ∈ p.onSource, KeyOnly f.2)
    (hGi : GoodSeq p.onIndex (rowsIn (rowsOf Xs) p.view)) {E : Rec → List Rec}
    (hE : ∀ x ∈ Xs, inView p.view x.key = true → (p.onIndex.all fun f => passes f.2 x.row) = true →
      ∃ o, indirectKey q tb x.row = .ok o ∧ (o = none → E x = []) ∧
        ∀ k, o = some k → GoodSeq p.onSource (rowsIn (rowsOf Ts) (.pfx k)) ∧
          (∀ y ∈ Ts, inView (.pfx k) y.key = true → timed y = true) ∧
          E x = Ts.filter fun y => inView (.pfx k) y.key &&
            ((p.onSource.all fun f => passes f.2 y.row) && timePass q.bounds y.row))
    (ls : List Limits) (hl : q.lim.active = true → ∀ l ∈ ls, l.active = true) {w : World}
    (ho : w.offset = q.offset) :
    let B := assemble q S p
    Returns q.lim.active
      (((((Xs.filter fun x => inView p.view x.key && p.onIndex.all fun f => passes f.2 x.row).flatMap E).drop
        q.offset)).map Rec.entry) (queryRun q B ls B.start w) ∧
    ∀ c ∈ queryRun q B ls B.start w, Timely c := by
  intro B
  have hR := impl_filters (hX' p.view) (hX.sorted.filter _) hGi
  have e : (rowsIn (rowsOf Xs) p.view).filter (fun kv => p.onIndex.all fun f => passes f.2 kv) =
      (Xs.filter fun x => inView p.view x.key && p.onIndex.all fun f => passes f.2 x.row).map Rec.row := by
    rw [rowsIn, List.filter_filter, rowsOf, filter_rows]
    congr 1
    apply List.filter_congr
    intro x hx
    rw [Bool.and_comm]; rfl
  change Impl _ _ _ ((rowsIn (rowsOf Xs) p.view).filter _) at hR
  rw [e] at hR
  let rows : Bytes → Table := fun k => (Ts.filter fun y => inView (.pfx k) y.key &&
    ((p.onSource.all fun f => passes f.2 y.row) && timePass q.bounds y.row)).map Rec.row
  have hX : ∀ x, x ∈ Xs.filter (fun x => inView p.view x.key && p.onIndex.all fun f => passes f.2 x.row) →
      ∃ o, indirectKey q tb x.row = .ok o ∧ (o = none → E x = []) ∧
        ∀ k, o = some k → GoodSeq p.onSource (rowsIn (rowsOf Ts) (.pfx k)) ∧
          (∀ y ∈ Ts, inView (.pfx k) y.key = true → timed y = true) ∧
          E x = Ts.filter fun y => inView (.pfx k) y.key &&
            ((p.onSource.all fun f => passes f.2 y.row) && timePass q.bounds y.row) := by
    intro x hx
    obtain ⟨h1, h2⟩ := List.mem_filter.1 hx
    rw [Bool.and_eq_true] at h2
    exact hE x h1 h2.1 h2.2
  have hLk : Lookups q tb (coreM q S p) q.lim.active rows
      ((Xs.filter fun x => inView p.view x.key && p.onIndex.all fun f => passes f.2 x.row).map Rec.row) := by
    intro j hj
    obtain ⟨x, hx, rfl⟩ := List.mem_map.1 hj
    obtain ⟨o, h1, -, h3⟩ := hX x hx
    refine ⟨o, h1, fun k hk => ?_⟩
    obtain ⟨h4, h5, h6⟩ := h3 k hk
    exact ⟨hO p _ hK h4 h5, safeRows_rows fun y hy => hS.legal y (List.mem_filter.1 hy).1⟩
  have hfm : ((Xs.filter fun x => inView p.view x.key && p.onIndex.all fun f => passes f.2 x.row).map
      Rec.row).flatMap (lookupRows q tb rows) =
      ((Xs.filter fun x => inView p.view x.key && p.onIndex.all fun f => passes f.2 x.row).flatMap E).map Rec.row := by
    rw [List.map_flatMap, List.flatMap_map]
    apply flatMap_congr_mem
    intro x hx
    obtain ⟨o, h1, h2, h3⟩ := hX x hx
    unfold lookupRows
    rw [h1]
    cases o with
    | none => rw [h2 rfl]; rfl
    | some k => rw [(h3 k rfl).2.2]
  have hleg : ∀ x ∈ (Xs.filter fun x => inView p.view x.key && p.onIndex.all fun f => passes f.2 x.row).flatMap E,
      x.legal := by
    intro y hy
    obtain ⟨x, hx, hxy⟩ := List.mem_flatMap.1 hy
    obtain ⟨o, h1, h2, h3⟩ := hX x hx
    cases o with
    | none => rw [h2 rfl] at hxy; cases hxy
    | some k =>
      rw [(h3 k rfl).2.2] at hxy
      exact hS.legal y (List.mem_filter.1 hxy).1
  have := query_indirect (S := S) hp hR hLk ls hl ho
  rw [hfm, ← List.map_drop, filterMap_rows (fun x hx => hleg x (List.mem_of_mem_drop hx))] at this
  exact this

end Verif
