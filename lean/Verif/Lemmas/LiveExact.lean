import Verif.Lemmas.LiveRun
import Verif.Lemmas.QueryCore

/-!
# Which rows an open iterator returns and passes over while its query changes
-/

namespace Verif
open Spec

/-- What a `next` call may do when the rows still to come are `L` and it passes over those that fail `keep`. -/
def SkipSpec (t : Bool) (keep : KV → Bool) (lo : Bytes) (L : Table) (w : World) (r : Res) (w' : World)
    (after : Bytes → Table → Prop) : Prop :=
  Frame w w' ∧ ∃ D L', L = D ++ L' ∧ (∀ x ∈ D, keep x = false) ∧
    ((r = .timeout ∧ t = true ∧ ∃ lo', lexLe lo lo' = true ∧ after lo' L') ∨
     (r = .done ∧ (∀ x ∈ L', keep x = false) ∧ ∃ lo', lexLe lo lo' = true ∧ after lo' L') ∨
     ∃ kv L'', r = .item kv ∧ L' = kv :: L'' ∧ keep kv = true ∧ lexLe lo kv.1 = true ∧ after kv.1 L'')

theorem SkipSpec.chain {t : Bool} {keep : KV → Bool} {lo lo2 : Bytes} {D L : Table} {w w2 w3 : World} {r : Res}
    {after : Bytes → Table → Prop} (hf : Frame w w2) (hlo : lexLe lo lo2 = true) (hD : ∀ x ∈ D, keep x = false)
    (h : SkipSpec t keep lo2 L w2 r w3 after) : SkipSpec t keep lo (D ++ L) w r w3 after := by
  obtain ⟨hf3, E, L', rfl, hE, h⟩ := h
  refine ⟨hf.trans hf3, D ++ E, L', by rw [List.append_assoc], fun x hx => ?_, ?_⟩
  · rcases List.mem_append.1 hx with h | h
    · exact hD x h
    · exact hE x h
  · rcases h with ⟨h1, h2, lo', h3, h4⟩ | ⟨h1, h2, lo', h3, h4⟩ | ⟨kv, L'', h1, h2, h3, h4, h5⟩
    · exact .inl ⟨h1, h2, lo', lexLe_trans hlo h3, h4⟩
    · exact .inr (.inl ⟨h1, h2, lo', lexLe_trans hlo h3, h4⟩)
    · exact .inr (.inr ⟨kv, L'', h1, h2, h3, lexLe_trans hlo h4, h5⟩)

/-- `R s lo L`: in state `s` the rows still to come are `L`, of which those that fail `keep` are passed over. -/
structure Skips (M : Mach) (t : Bool) (keep : KV → Bool) (R : M.St → Bytes → Table → Prop) : Prop where
  size : ∀ {s lo L}, R s lo L → L.length ≤ M.size s
  next : ∀ {s lo L} (w : World), R s lo L → (t = true → w.armed = true) →
    SkipSpec t keep lo L w (M.next s w).1 (M.next s w).2.2 (R (M.next s w).2.1)
  seek : ∀ {s lo L} (k : Bytes) (w : World), R s lo L → lexLt lo k = true →
    Frame w (M.seek s k w).2.2 ∧
    R (M.seek s k w).2.1 k (L.filter fun kv => lexLe k kv.1) ∧
    ((M.seek s k w).1 = false → (L.filter fun kv => lexLe k kv.1) = [])

/-- In a sorted table, the rows from `k` on are at the end. -/
theorem sorted_split {U : Table} (hs : Sorted U) (k : Bytes) :
    ∃ E, U = E ++ U.filter (fun kv => lexLe k kv.1) ∧ ∀ x ∈ E, lexLt x.1 k = true := by
  refine ⟨U.takeWhile fun kv => lexLt kv.1 k, ?_, fun x hx => ?_⟩
  case refine_2 => exact mem_takeWhile_imp (p := fun kv : KV => lexLt kv.1 k) hx
  rw [← dropWhile_lt hs]
  exact List.takeWhile_append_dropWhile.symm

theorem skips_filterLoop {M : Mach} {t : Bool} {keep : KV → Bool} {R : M.St → Bytes → Table → Prop} {T : Table}
    (hS : Skips M t keep R) (hR : ∀ {s lo L}, R s lo L → Sorted L ∧ L ⊆ T) {f : KV → Verdict}
    (hG : Good f (passes f) (T.filter keep)) (g : Stage) {n : Nat} {s : M.St} {lo : Bytes} {U : Table} (w : World)
    (h : R s lo U) (ha : t = true → w.armed = true) (hn : U.length < n) :
    SkipSpec t (fun kv => keep kv && passes f kv) lo U w (filterLoop g (pureF f) M n s w).1
      (filterLoop g (pureF f) M n s w).2.2 (R (filterLoop g (pureF f) M n s w).2.1) := by
  induction n generalizing s lo U w with
  | zero => omega
  | succ n ih =>
    obtain ⟨hs, hU⟩ := hR h
    have hnext := hS.next w h ha
    unfold filterLoop
    generalize he : M.next s w = r at hnext
    obtain ⟨res, s1, w1⟩ := r
    obtain ⟨hf, D, L', rfl, hD, hnext⟩ := hnext
    simp only at hf hnext
    have hD' : ∀ x ∈ D, (keep x && passes f x) = false := fun x hx => by rw [hD x hx]; rfl
    rcases hnext with ⟨rfl, ht, lo', hle, hA⟩ | ⟨rfl, hall, lo', hle, hA⟩ | ⟨kv, U', rfl, rfl, hk, hle, hA⟩
    · exact ⟨hf, D, L', rfl, hD', .inl ⟨rfl, ht, lo', hle, hA⟩⟩
    · exact ⟨hf, D, L', rfl, hD', .inr (.inl ⟨rfl, fun x hx => (by simp [hall x hx]), lo', hle, hA⟩)⟩
    · have hs' : Sorted (kv :: U') := hs.sublist (List.sublist_append_right _ _)
      have hmem : ∀ x ∈ kv :: U', keep x = true → x ∈ T.filter keep := fun x hx hkx =>
        List.mem_filter.2 ⟨hU (List.mem_append_right _ hx), hkx⟩
      have hg := hG kv (hmem kv List.mem_cons_self hk)
      have hlen : U'.length < n := by simp at hn; omega
      have after : ∀ {b : Bytes}, (∀ x ∈ T.filter keep, lexLe kv.1 x.1 = true → lexLt x.1 b = true → passes f x = false) →
          ∀ x ∈ U', lexLt x.1 b = true → (keep x && passes f x) = false := by
        intro b hb x hx hlt
        cases hkx : keep x with
        | false => rfl
        | true => exact hb x (hmem x (List.mem_cons_of_mem _ hx) hkx) (hs'.head hx) hlt
      simp only [pureF]
      cases hfk : f kv with
      | pass =>
        simp only [hfk] at hg ⊢
        exact ⟨hf, D, _, rfl, hD', .inr (.inr ⟨kv, U', rfl, rfl, by simp [hk, hg], hle, hA⟩)⟩
      | drop =>
        simp only [hfk] at hg ⊢
        have h2 := ih (w1.upd g fun c => { c with filtered := c.filtered + 1 }) hA (fun h => by
          show w1.armed = true
          rw [hf.armed]; exact ha h) hlen
        rw [show D ++ kv :: U' = (D ++ [kv]) ++ U' by simp]
        refine SkipSpec.chain (hf.upd _ _) hle ?_ h2
        intro x hx
        rcases List.mem_append.1 hx with h | h
        · exact hD' x h
        · rw [List.mem_singleton] at h; subst h; rw [hg, Bool.and_false]
      | seekTo k =>
        simp only [hfk] at hg ⊢
        obtain ⟨hkeep, hlt, hskip⟩ := hg
        obtain ⟨hfs, hRs, hfail⟩ := hS.seek k (w1.upd g fun c => { c with seek := c.seek + 1 }) hA hlt
        generalize hes : M.seek s1 k (w1.upd g fun c => { c with seek := c.seek + 1 }) = rs at *
        obtain ⟨ok, s2, w2⟩ := rs
        simp only at hfs hRs hfail
        obtain ⟨E, hE, hEk⟩ := sorted_split hs'.tail k
        have hdrop : ∀ x ∈ D ++ kv :: E, (keep x && passes f x) = false := by
          intro x hx
          rcases List.mem_append.1 hx with h | h
          · exact hD' x h
          · rcases List.mem_cons.1 h with rfl | h
            · rw [hkeep, Bool.and_false]
            · exact after (fun x hx h1 h2 => hskip x hx h1 h2) x (by rw [hE]; exact List.mem_append_left _ h) (hEk x h)
        have hsplit : D ++ kv :: U' = (D ++ kv :: E) ++ U'.filter (fun kv => lexLe k kv.1) := by
          conv => lhs; rw [hE]
          simp
        cases ok with
        | true =>
          have h2 := ih (w2.upd g fun c => { c with filtered := c.filtered + 1 }) hRs (fun h => by
            show w2.armed = true
            rw [hfs.armed]
            show w1.armed = true
            rw [hf.armed]; exact ha h) (Nat.lt_of_le_of_lt (List.length_filter_le _ _) hlen)
          rw [hsplit]
          exact SkipSpec.chain ((hf.trans (((Frame.refl _).upd _ _).trans hfs)).upd _ _)
            (lexLe_trans hle (lexLe_iff.2 (.inl hlt))) hdrop h2
        | false =>
          have hnil := hfail rfl
          rw [hsplit]
          exact ⟨hf.trans (((Frame.refl _).upd _ _).trans hfs), _, _, rfl, hdrop, .inr (.inl ⟨rfl,
            fun x hx => (by rw [hnil] at hx; cases hx), k, lexLe_trans hle (lexLe_iff.2 (.inl hlt)), hRs⟩)⟩
      | stop =>
        simp only [hfk] at hg ⊢
        have hall : ∀ x ∈ kv :: U', (keep x && passes f x) = false := by
          intro x hx
          cases hkx : keep x with
          | false => rfl
          | true =>
            refine hg x (hmem x hx hkx) ?_
            rcases List.mem_cons.1 hx with rfl | hx
            · exact lexLe_refl _
            · exact hs'.head hx
        refine ⟨hf, D ++ [kv], U', by simp, fun x hx => ?_, .inr (.inl ⟨rfl, fun x hx => hall x (List.mem_cons_of_mem _ hx),
          kv.1, hle, hA⟩)⟩
        rcases List.mem_append.1 hx with h | h
        · exact hD' x h
        · rw [List.mem_singleton] at h; subst h; exact hall _ List.mem_cons_self
      | fault e => simp only [hfk] at hg

theorem Skips.filter {M : Mach} {t : Bool} {keep : KV → Bool} {R : M.St → Bytes → Table → Prop} {T : Table}
    (hS : Skips M t keep R) (hR : ∀ {s lo L}, R s lo L → Sorted L ∧ L ⊆ T) {f : KV → Verdict}
    (hG : Good f (passes f) (T.filter keep)) (g : Stage) :
    Skips (filterM g (pureF f) M) t (fun kv => keep kv && passes f kv) R :=
  ⟨hS.size, fun w h ha => skips_filterLoop hS hR hG g w h ha (Nat.lt_succ_of_le (hS.size h)), hS.seek⟩

/-- The source gives the rows `T` for the view `V`, and with the query `q` passes over those that fail `K q`; `ok` are the
queries that may occur. -/
def SkipsQ (M : QMach) (t : Bool) (ok : Query → Prop) (K : Query → KV → Bool) (V : View) (T : Table) : Prop :=
  ∃ R : M.St → Bytes → Table → Prop, (∀ q, ok q → Skips (M.at q) t (K q) R) ∧ R (M.start V) V.lo T ∧
    ∀ {s lo L}, R s lo L → Sorted L ∧ L ⊆ T

theorem SkipsQ.congr {M : QMach} {t : Bool} {ok : Query → Prop} {K K' : Query → KV → Bool} {V : View} {T : Table}
    (h : SkipsQ M t ok K V T) (e : ∀ q kv, K q kv = K' q kv) : SkipsQ M t ok K' V T := by
  have : K = K' := by funext q kv; exact e q kv
  exact this ▸ h

theorem SkipsQ.filter {M : QMach} {t : Bool} {ok : Query → Prop} {K : Query → KV → Bool} {V : View} {T : Table}
    (h : SkipsQ M t ok K V T) (g : Stage) {f : Query → KV → Verdict} (hG : ∀ q, ok q → Good (f q) (passes (f q)) T) :
    SkipsQ (filterQ g (fun q => pureF (f q)) M) t ok (fun q kv => K q kv && passes (f q) kv) V T := by
  obtain ⟨R, hS, h0, hR⟩ := h
  exact ⟨R, fun q hq => (hS q hq).filter hR ((hG q hq).mono List.filter_sublist.subset) g, h0, hR⟩

theorem SkipsQ.filters {t : Bool} {ok : Query → Prop} {V : View} {T : Table} {q0 : Query} {n : Nat} :
    ∀ (fs : List Filt) {M : QMach} {K : Query → KV → Bool}, SkipsQ M t ok K V T →
    (∀ f ∈ fs, ∀ q, ok q → Good (liveFilter q0 n f q) (passes (liveFilter q0 n f q)) T) →
    SkipsQ (liveFilters q0 n fs M) t ok (fun q kv => K q kv && fs.all fun f => passes (liveFilter q0 n f q) kv) V T
  | [], M, K, h, _ => h.congr fun q kv => by simp
  | f :: fs, M, K, h, hG => by
    unfold liveFilters
    refine (SkipsQ.filters fs (h.filter f.1 fun q hq => hG f List.mem_cons_self q hq)
      fun f hf => hG f (List.mem_cons_of_mem _ hf)).congr fun q kv => ?_
    simp [Bool.and_assoc]

theorem skipsQ_timeout {T : Table} (hT : Sorted T) (sf : View → Bytes → Bool) (q0 : Query) (ok : Query → Prop) (V : View) :
    SkipsQ (liveTimeout q0 (curM T sf)) q0.lim.active ok (fun _ _ => true) V (rowsIn T V) := by
  have h := impl_withTimeout (q := q0) (impl_cur hT sf V)
  have hs : Sorted (rowsIn T V) := hT.filter _
  have key : ∀ {M : QMach} {t : Bool}, (∀ q, M.next q = M.next q0) → Impl (M.at q0) t V (rowsIn T V) →
      SkipsQ M t ok (fun _ _ => true) V (rowsIn T V) := by
    intro M t hM h
    obtain ⟨R, hS, h0⟩ := h
    have base : Skips (M.at q0) t (fun _ => true) fun s lo L => R s lo L ∧ Sorted L ∧ L ⊆ rowsIn T V := by
      refine ⟨fun h => hS.size h.1, ?_, ?_⟩
      · rintro s lo L w ⟨hR, hL, hsub⟩ ha
        obtain ⟨hf, hn⟩ := hS.next w hR ha
        refine ⟨hf, [], L, rfl, by simp, ?_⟩
        rcases hn with ⟨hr, ht, -, lo', hle, hA⟩ | ⟨-, -, ⟨hr, rfl, lo', hle, hA⟩ | ⟨kv, L', hr, rfl, hle, hA⟩⟩
        · exact .inl ⟨hr, ht, lo', hle, hA, hL, hsub⟩
        · exact .inr (.inl ⟨hr, by simp, lo', hle, hA, hL, hsub⟩)
        · exact .inr (.inr ⟨kv, L', hr, rfl, rfl, hle, hA, hL.tail, fun x hx => hsub (List.mem_cons_of_mem _ hx)⟩)
      · rintro s lo L k w ⟨hR, hL, hsub⟩ hk
        obtain ⟨hf, -, hRs, hfail⟩ := hS.seek k w hR hk
        exact ⟨hf, ⟨hRs, hL.filter _, fun x hx => hsub (List.mem_filter.1 hx).1⟩, hfail⟩
    refine ⟨fun s lo L => R s lo L ∧ Sorted L ∧ L ⊆ rowsIn T V, fun q _ => ?_, ⟨h0, hs, fun _ h => h⟩, fun h => h.2⟩
    have all : ∀ nx, nx = M.next q0 → Skips ⟨M.St, M.start, nx, M.seek, M.size⟩ t (fun _ => true)
        fun s lo L => R s lo L ∧ Sorted L ∧ L ⊆ rowsIn T V := by
      rintro nx rfl
      exact base
    exact all _ (hM q)
  refine key (fun q => ?_) ?_
  · by_cases ha : q0.lim.active = true
    · have e : liveTimeout q0 (curM T sf) = timeoutQ (constQ (curM T sf)) := if_pos ha
      rw [e]; rfl
    · have e : liveTimeout q0 (curM T sf) = constQ (curM T sf) := if_neg ha
      rw [e]; rfl
  · rw [timeout_at]; exact h

/-- Whether a row passes the time filters of an iterator opened for `q0` whose query is now `q`. -/
def liveTimePass (q0 q : Query) (kv : KV) : Bool := !q0.bounds.any || passes (filterTime q.bounds false) kv

theorem SkipsQ.times {M : QMach} {t : Bool} {ok : Query → Prop} {K : Query → KV → Bool} {V : View} {T : Table}
    (h : SkipsQ M t ok K V T) (q0 : Query) (hT : q0.bounds.any = true → ∀ kv ∈ T, (tripletUnpack kv.2).safe) :
    SkipsQ (liveTimes q0 none none M) t ok (fun q kv => K q kv && liveTimePass q0 q kv) V T := by
  unfold liveTimes liveFill liveRemove
  by_cases hb : q0.bounds.any = true
  · rw [if_pos hb]
    have g : ∀ pre (q : Query), Good (filterTime q.bounds pre) (passes (filterTime q.bounds pre)) T :=
      fun pre q => good_verdictOf (m := fun kv => timeMatch q.bounds pre kv.2)
        (fun kv hkv => timeMatch_ok (hT hb kv hkv) _ _)
    refine ((h.filter .filterTimePrefilter fun q _ => g true q).filter .filterTime fun q _ => g false q).congr fun q kv => ?_
    rw [liveTimePass, hb, passes_filterTime, passes_filterTime]
    cases hm : decide (timeMatch q.bounds false kv.2 = .ok true) with
    | false => simp
    | true => simp [timeMatch_pre (of_decide_eq_true hm)]
  · rw [if_neg hb]
    exact h.congr fun q kv => by simp [liveTimePass, hb]

/-- One call of a direct query. -/
theorem liveNext_direct (q0 : Query) (L : LiveBuilt) (q : Query) (s : L.source.St) (w : World) {r : QRes} {s' : L.source.St} {w' : World}
    (h : directLoop (L.source.at q) ((L.source.at q).size s + 1) s (armTimer q.lim { w with offset := q.offset }) = (r, s', w')) :
    liveNext q0 L q (.direct s) w = (r, .direct s', { q with offset := w'.offset }, disarm w') := by
  have e : liveNext q0 L q (.direct s) w =
      (fun d : QRes × L.source.St × World => (d.1, (.direct d.2.1 : QSt (L.at q0)), { q with offset := d.2.2.offset }, disarm d.2.2))
        (directLoop (L.source.at q) ((L.source.at q).size s + 1) s (armTimer q.lim { w with offset := q.offset })) := rfl
  rw [e, h]

theorem loop_timeout {M : Mach} {n : Nat} {s s' : M.St} {w w' : World} (h : M.next s w = (.timeout, s', w')) :
    directLoop M (n + 1) s w = (.timeout, s', w') := by rw [directLoop, h]

theorem loop_done {M : Mach} {n : Nat} {s s' : M.St} {w w' : World} (h : M.next s w = (.done, s', w')) :
    directLoop M (n + 1) s w = (.failure, s', w') := by rw [directLoop, h]

theorem loop_item {M : Mach} {n : Nat} {s s' : M.St} {w w' : World} {kv : KV} {e : Entry} (h : M.next s w = (.item kv, s', w'))
    (he : entryDecode kv.1 kv.2 = .ok e) : directLoop M (n + 1) s w = (.entry e, s', w') := by
  rw [directLoop, h]; simp only [he]

/-- A direct query while its query changes. -/
theorem live_run_direct {A : Arith} {T : Libs} {q0 : Query} {L : LiveBuilt} (hL : L.indirect = none) {t : Bool}
    {K : Query → KV → Bool} {R : L.source.St → Bytes → Table → Prop} {U : Table}
    (hS : ∀ q, Skips (L.source.at q) t (K q) R) (hR : ∀ {s lo L}, R s lo L → L ⊆ U)
    (hd : ∀ kv ∈ U, ∃ e, entryDecode kv.1 kv.2 = .ok e) :
    ∀ (os : List LiveOp) (q : Query) (s : (L.at q0).source.St) (w : World) (lo : Bytes) (X : Table), R s lo X →
      (t = true → ∀ c ∈ liveRun A T q0 L os q (.direct s) w, c.query.lim.active = true) →
      LiveReturns t decodeRow K X (liveRun A T q0 L os q (.direct s) w)
  | [], q, s, w, lo, X, _, _ => .nil
  | .set x :: os, q, s, w, lo, X, hX, hl => by
    unfold liveRun at hl ⊢
    cases e : applySetter A T q x with
    | ok r =>
      obtain ⟨q', b⟩ := r
      rw [e] at hl
      exact live_run_direct hL hS hR hd os q' s w lo X hX hl
    | fail => exact .nil
    | fault f => exact .nil
  | .next :: os, q, s, w, lo, X, hX, hl => by
    unfold liveRun at hl ⊢
    have hla := fun h => hl h _ List.mem_cons_self
    have hlt := fun h c hc => hl h c (List.mem_cons_of_mem _ hc)
    have ha : t = true → (armTimer q.lim { w with offset := q.offset }).armed = true := fun h => armTimer_armed (hla h)
    have hn := (hS q).next (armTimer q.lim { w with offset := q.offset }) hX ha
    have step : ∀ {r : QRes} {s' : L.source.St} {w' : World} {lo' : Bytes} {Y : Table},
        directLoop (L.source.at q) ((L.source.at q).size s + 1) s (armTimer q.lim { w with offset := q.offset }) = (r, s', w') →
        R s' lo' Y → ∃ c cs, liveNext q0 L q (.direct s) w = (r, .direct s', { q with offset := w'.offset }, disarm w') ∧
          (⟨q, { w with offset := q.offset }, (liveNext q0 L q (.direct s) w).2.2.2, (liveNext q0 L q (.direct s) w).1⟩ ::
            liveRun A T q0 L os (liveNext q0 L q (.direct s) w).2.2.1 (liveNext q0 L q (.direct s) w).2.1
              (liveNext q0 L q (.direct s) w).2.2.2) = c :: cs ∧ c.query = q ∧ c.res = r ∧ LiveReturns t decodeRow K Y cs := by
      intro r s' w' lo' Y h hY
      have e := liveNext_direct q0 L q s w h
      refine ⟨_, _, e, rfl, rfl, by rw [e], ?_⟩
      rw [e] at hlt ⊢
      exact live_run_direct hL hS hR hd os _ s' _ lo' Y hY hlt
    rcases hm : (L.source.at q).next s (armTimer q.lim { w with offset := q.offset }) with ⟨r, s', w'⟩
    rw [hm] at hn
    obtain ⟨hf, D, L', rfl, hD, hn⟩ := hn
    simp only at hf hn
    rcases hn with ⟨rfl, ht, lo', hle, hA⟩ | ⟨rfl, hall, lo', hle, hA⟩ | ⟨kv, U', rfl, rfl, hk, hle, hA⟩
    · obtain ⟨c, cs, -, e, rfl, hr, hc⟩ := step (loop_timeout hm) hA
      rw [e]
      exact .timeout ht hD hr hc
    · obtain ⟨c, cs, -, e, rfl, hr, hc⟩ := step (loop_done hm) hA
      rw [e]
      refine .failure (fun y hy => ?_) hr hc
      rcases List.mem_append.1 hy with h | h
      · exact hD y h
      · exact hall y h
    · obtain ⟨en, he⟩ := hd kv (hR hX (by simp))
      obtain ⟨c, cs, -, e, rfl, hr, hc⟩ := step (loop_item hm he) hA
      rw [e]
      exact .entry hD hk (by simp [decodeRow, he]) hr hc

end Verif
