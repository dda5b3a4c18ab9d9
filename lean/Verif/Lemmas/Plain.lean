import Verif.Lemmas.TwinRun

/-!
# Machines that look at nothing but their own state

Without time limit and offset stage, what a table operation returns depends only on the iterator's own
state, and the query's remaining offset is left alone.
-/

namespace Verif
open Spec

/-- Whatever the world: result `r`, new state `s`, offset unchanged. -/
def Fixed {α σ : Type} (f : World → α × σ × World) (r : α) (s : σ) : Prop :=
  ∀ w, ∃ w', w'.offset = w.offset ∧ f w = (r, s, w')

/-- A machine that looks only at its own state; all rows delivered satisfy `Q`. -/
structure Plain (Q : KV → Prop) (U : Mach) (J : U.St → Prop) : Prop where
  start : ∀ V, J (U.start V)
  next : ∀ {u}, J u → ∃ r u', J u' ∧ (∀ kv, r = .item kv → Q kv) ∧ Fixed (U.next u) r u'
  seek : ∀ {u} k, J u → ∃ ok u', J u' ∧ Fixed (U.seek u k) ok u'

/-- Some invariant makes the machine plain. -/
def IsPlain (Q : KV → Prop) (U : Mach) : Prop := ∃ J, Plain Q U J

theorem Fixed.ret {α σ : Type} (r : α) (s : σ) : Fixed (fun w => (r, s, w)) r s := fun w => ⟨w, rfl, rfl⟩

theorem plain_cur (T : Table) (sf : View → Bytes → Bool) : IsPlain (· ∈ T) (curM T sf) := by
  refine ⟨fun u => ∀ kv ∈ u.2, kv ∈ T, fun V kv h => ?_, ?_, ?_⟩
  · exact (List.dropWhile_sublist _).subset h
  · rintro ⟨V, r⟩ hJ
    cases r with
    | nil => exact ⟨.done, (V, []), hJ, by simp, fun w => ⟨w, rfl, rfl⟩⟩
    | cons kv r =>
      by_cases hk : V.ok kv.1 = true
      · refine ⟨.item kv, (V, r), fun x hx => hJ x (List.mem_cons_of_mem _ hx), ?_, fun w => ⟨w, rfl, if_pos hk⟩⟩
        intro x hx
        cases hx
        exact hJ kv List.mem_cons_self
      · exact ⟨.done, (V, kv :: r), hJ, by simp, fun w => ⟨w, rfl, if_neg hk⟩⟩
  · rintro ⟨V, r⟩ k hJ
    exact ⟨_, (V, T.dropWhile fun kv => lexLt kv.1 k), fun kv h => (List.dropWhile_sublist _).subset h,
      fun w => ⟨w, rfl, rfl⟩⟩

theorem Plain.weaken {Q Q' : KV → Prop} {U : Mach} {J : U.St → Prop} (h : Plain Q U J)
    (hq : ∀ kv, Q kv → Q' kv) : Plain Q' U J :=
  ⟨h.start, fun hu => by
    obtain ⟨r, u', h1, h2, h3⟩ := h.next hu
    exact ⟨r, u', h1, fun kv hk => hq kv (h2 kv hk), h3⟩, h.seek⟩

theorem plain_filterLoop {Q : KV → Prop} {U : Mach} {J : U.St → Prop} (h : Plain Q U J) (g : Stage)
    (f : KV → Verdict) (n : Nat) : ∀ {u}, J u →
      ∃ r u', J u' ∧ (∀ kv, r = .item kv → Q kv) ∧ Fixed (filterLoop g (pureF f) U n u) r u' := by
  induction n with
  | zero => intro u hu; exact ⟨.fault .diverge, u, hu, by simp, fun w => ⟨w, rfl, rfl⟩⟩
  | succ n ih =>
    intro u hu
    obtain ⟨r, u1, hu1, hq, hfix⟩ := h.next hu
    cases r with
    | done =>
      refine ⟨.done, u1, hu1, by simp, fun w => ?_⟩
      obtain ⟨w1, ho, he⟩ := hfix w
      exact ⟨w1, ho, by simp only [filterLoop, he]⟩
    | timeout =>
      refine ⟨.timeout, u1, hu1, by simp, fun w => ?_⟩
      obtain ⟨w1, ho, he⟩ := hfix w
      exact ⟨w1, ho, by simp only [filterLoop, he]⟩
    | fault e =>
      refine ⟨.fault e, u1, hu1, by simp, fun w => ?_⟩
      obtain ⟨w1, ho, he⟩ := hfix w
      exact ⟨w1, ho, by simp only [filterLoop, he]⟩
    | item kv =>
      cases hv : f kv with
      | pass =>
        refine ⟨.item kv, u1, hu1, hq, fun w => ?_⟩
        obtain ⟨w1, ho, he⟩ := hfix w
        exact ⟨w1, ho, by simp only [filterLoop, he, pureF, hv]⟩
      | drop =>
        obtain ⟨r2, u2, hu2, hq2, hfix2⟩ := ih hu1
        refine ⟨r2, u2, hu2, hq2, fun w => ?_⟩
        obtain ⟨w1, ho, he⟩ := hfix w
        obtain ⟨w2, ho2, he2⟩ := hfix2 (w1.upd g fun c => { c with filtered := c.filtered + 1 })
        refine ⟨w2, ho2.trans ho, ?_⟩
        simp only [filterLoop, he, pureF, hv]
        exact he2
      | seekTo k =>
        obtain ⟨ok, u2, hu2, hfix2⟩ := h.seek k hu1
        cases ok with
        | false =>
          refine ⟨.done, u2, hu2, by simp, fun w => ?_⟩
          obtain ⟨w1, ho, he⟩ := hfix w
          obtain ⟨w2, ho2, he2⟩ := hfix2 (w1.upd g fun c => { c with seek := c.seek + 1 })
          exact ⟨w2, ho2.trans ho, by simp only [filterLoop, he, pureF, hv, he2]⟩
        | true =>
          obtain ⟨r3, u3, hu3, hq3, hfix3⟩ := ih hu2
          refine ⟨r3, u3, hu3, hq3, fun w => ?_⟩
          obtain ⟨w1, ho, he⟩ := hfix w
          obtain ⟨w2, ho2, he2⟩ := hfix2 (w1.upd g fun c => { c with seek := c.seek + 1 })
          obtain ⟨w3, ho3, he3⟩ := hfix3 (w2.upd g fun c => { c with filtered := c.filtered + 1 })
          refine ⟨w3, ho3.trans (ho2.trans ho), ?_⟩
          simp only [filterLoop, he, pureF, hv, he2]
          exact he3
      | stop =>
        refine ⟨.done, u1, hu1, by simp, fun w => ?_⟩
        obtain ⟨w1, ho, he⟩ := hfix w
        exact ⟨w1, ho, by simp only [filterLoop, he, pureF, hv]⟩
      | fault e =>
        refine ⟨.fault e, u1, hu1, by simp, fun w => ?_⟩
        obtain ⟨w1, ho, he⟩ := hfix w
        exact ⟨w1, ho, by simp only [filterLoop, he, pureF, hv]⟩

theorem IsPlain.filter {Q : KV → Prop} {U : Mach} (h : IsPlain Q U) (g : Stage) (f : KV → Verdict) :
    IsPlain Q (filterM g (pureF f) U) := by
  obtain ⟨J, h⟩ := h
  exact ⟨J, h.start, fun hu => plain_filterLoop h g f _ hu, fun k hu => h.seek k hu⟩

theorem IsPlain.filters {Q : KV → Prop} {U : Mach} (h : IsPlain Q U) (fs : List Filt) :
    IsPlain Q (withFilters fs U) := by
  induction fs generalizing U with
  | nil => exact h
  | cons f fs ih => exact ih (h.filter f.1 f.2)

/-! ## Removal -/

theorem rmFetch_fixed (R : Src) (s : View × Table) (k : Bytes) :
    ∃ o s', Fixed (rmFetch R s k) o s' := by
  by_cases hs : (R.mach.seek s k ⟨fun _ => ⟨0, 0⟩, 0, ⟨0, 0⟩, false, 0, fun _ => {}⟩).1 = true
  · obtain ⟨J, hp⟩ := plain_cur R.rows R.seekFails
    cases hr : (R.rows.dropWhile fun kv => lexLt kv.1 k) with
    | nil =>
      refine ⟨none, (s.1, []), fun w => ⟨w.upd .removeStrict fun c => { c with seek := c.seek + 1 }, rfl, ?_⟩⟩
      have h1 : R.mach.seek s k w = (true, (s.1, []), w) := by
        rw [← hr]
        exact Prod.ext hs rfl
      simp only [rmFetch, h1]
      rfl
    | cons kv r =>
      have h1 : ∀ w, R.mach.seek s k w = (true, (s.1, kv :: r), w) := fun w => by
        rw [← hr]
        exact Prod.ext hs rfl
      by_cases hk : s.1.ok kv.1 = true
      · refine ⟨some kv.1, (s.1, r), fun w => ⟨w.upd .removeStrict fun c => { c with seek := c.seek + 1 }, rfl, ?_⟩⟩
        have h2 : R.mach.next (s.1, kv :: r) (w.upd .removeStrict fun c => { c with seek := c.seek + 1 }) =
            (.item kv, (s.1, r), w.upd .removeStrict fun c => { c with seek := c.seek + 1 }) := if_pos hk
        simp only [rmFetch, h1, h2]
      · refine ⟨none, (s.1, kv :: r), fun w => ⟨w.upd .removeStrict fun c => { c with seek := c.seek + 1 }, rfl, ?_⟩⟩
        have h2 : R.mach.next (s.1, kv :: r) (w.upd .removeStrict fun c => { c with seek := c.seek + 1 }) =
            (.done, (s.1, kv :: r), w.upd .removeStrict fun c => { c with seek := c.seek + 1 }) := if_neg hk
        simp only [rmFetch, h1, h2]
  · refine ⟨none, (s.1, R.rows.dropWhile fun kv => lexLt kv.1 k), fun w => ⟨w, rfl, ?_⟩⟩
    have h1 : R.mach.seek s k w = (false, (s.1, R.rows.dropWhile fun kv => lexLt kv.1 k), w) :=
      Prod.ext (Bool.eq_false_iff.2 hs) rfl
    simp only [rmFetch, h1]

theorem rmAdvance_fixed (k : Bytes) (n : Nat) : ∀ (e : RmEntry) (s : View × Table),
    ∃ o e', Fixed (rmAdvance k n e s) o e' := by
  induction n with
  | zero => intro e s; exact ⟨_, _, fun w => ⟨w, rfl, rfl⟩⟩
  | succ n ih =>
    intro e s
    by_cases hf : e.finished = true
    · exact ⟨_, _, fun w => ⟨w, rfl, if_pos hf⟩⟩
    · cases hc : bytesCompare e.key k with
      | gt => exact ⟨some false, { e with it := some s }, fun w => ⟨w, rfl, by simp only [rmAdvance, hf, hc]; rfl⟩⟩
      | eq => exact ⟨some true, { e with it := some s }, fun w => ⟨w, rfl, by simp only [rmAdvance, hf, hc]; rfl⟩⟩
      | lt =>
        obtain ⟨o, s1, hfix⟩ := rmFetch_fixed e.src s k
        cases o with
        | none =>
          refine ⟨some false, { e with it := some s1, finished := true }, fun w => ?_⟩
          obtain ⟨w1, ho, he⟩ := hfix w
          exact ⟨w1, ho, by simp only [rmAdvance, hf, hc, he]; rfl⟩
        | some k' =>
          obtain ⟨o2, e2, hfix2⟩ := ih { e with key := k' } s1
          refine ⟨o2, e2, fun w => ?_⟩
          obtain ⟨w1, ho, he⟩ := hfix w
          obtain ⟨w2, ho2, he2⟩ := hfix2 w1
          refine ⟨w2, ho2.trans ho, ?_⟩
          unfold rmAdvance
          rw [if_neg hf]
          simp only [hc, he]
          exact he2

theorem rmEntryMatch_fixed (V : View) (k : Bytes) (e : RmEntry) :
    ∃ o e', Fixed (rmEntryMatch V k e) o e' := by
  obtain ⟨src, it, key, fin⟩ := e
  cases it with
  | some s => exact rmAdvance_fixed k _ _ s
  | none =>
    obtain ⟨o, s1, hfix⟩ := rmFetch_fixed src (src.mach.start V) k
    cases o with
    | none =>
      refine ⟨some false, ⟨src, some s1, key, true⟩, fun w => ?_⟩
      obtain ⟨w1, ho, he⟩ := hfix w
      exact ⟨w1, ho, by simp only [rmEntryMatch, he]⟩
    | some k' =>
      obtain ⟨o2, e2, hfix2⟩ := rmAdvance_fixed k (src.rows.length + 2) ⟨src, none, k', fin⟩ s1
      refine ⟨o2, e2, fun w => ?_⟩
      obtain ⟨w1, ho, he⟩ := hfix w
      obtain ⟨w2, ho2, he2⟩ := hfix2 w1
      refine ⟨w2, ho2.trans ho, ?_⟩
      simp only [rmEntryMatch, he]
      exact he2

theorem matchKey_fixed (V : View) (k : Bytes) : ∀ es seen : List RmEntry,
    ∃ o es', Fixed (matchKey V k seen es) o es' := by
  intro es
  induction es with
  | nil => intro seen; exact ⟨_, _, fun w => ⟨w, rfl, rfl⟩⟩
  | cons e es ih =>
    intro seen
    obtain ⟨o, e1, hfix⟩ := rmEntryMatch_fixed V k e
    cases o with
    | none =>
      refine ⟨none, seen.reverse ++ e1 :: es, fun w => ?_⟩
      obtain ⟨w1, ho, he⟩ := hfix w
      exact ⟨w1, ho, by simp only [matchKey, he]⟩
    | some b =>
      cases b with
      | true =>
        refine ⟨some true, e1 :: (seen.reverse ++ es), fun w => ?_⟩
        obtain ⟨w1, ho, he⟩ := hfix w
        exact ⟨w1.upd .removeStrict fun c => { c with filtered := c.filtered + 1 }, ho,
          by simp only [matchKey, he]⟩
      | false =>
        obtain ⟨o2, es2, hfix2⟩ := ih (e1 :: seen)
        refine ⟨o2, es2, fun w => ?_⟩
        obtain ⟨w1, ho, he⟩ := hfix w
        obtain ⟨w2, ho2, he2⟩ := hfix2 w1
        refine ⟨w2, ho2.trans ho, ?_⟩
        simp only [matchKey, he]
        exact he2

theorem rmSeekAll_fixed (k : Bytes) : ∀ es : List RmEntry,
    ∃ es', ∀ w, ∃ w' : World, w'.offset = w.offset ∧ rmSeekAll k es w = (es', w') := by
  intro es
  induction es with
  | nil => exact ⟨[], fun w => ⟨w, rfl, rfl⟩⟩
  | cons e es ih =>
    have h1 : ∃ e', ∀ w, ∃ w' : World, w'.offset = w.offset ∧ rmEntrySeek k e w = (e', w') := by
      obtain ⟨src, it, key, fin⟩ := e
      cases it with
      | none => exact ⟨_, fun w => ⟨w, rfl, rfl⟩⟩
      | some s =>
        by_cases hc : (fin || bytesCompare key k == .gt) = true
        · obtain ⟨o, s1, hfix⟩ := rmFetch_fixed src s k
          cases o with
          | none =>
            refine ⟨⟨src, some s1, key, true⟩, fun w => ?_⟩
            obtain ⟨w1, ho, he⟩ := hfix w
            refine ⟨w1, ho, ?_⟩
            unfold rmEntrySeek
            simp only
            rw [if_pos hc, he]
          | some k' =>
            refine ⟨⟨src, some s1, k', false⟩, fun w => ?_⟩
            obtain ⟨w1, ho, he⟩ := hfix w
            refine ⟨w1, ho, ?_⟩
            unfold rmEntrySeek
            simp only
            rw [if_pos hc, he]
        · refine ⟨⟨src, some s, key, fin⟩, fun w => ⟨w, rfl, ?_⟩⟩
          unfold rmEntrySeek
          simp only
          rw [if_neg hc]
    obtain ⟨e', h1⟩ := h1
    obtain ⟨es', h2⟩ := ih
    refine ⟨e' :: es', fun w => ?_⟩
    obtain ⟨w1, ho, he⟩ := h1 w
    obtain ⟨w2, ho2, he2⟩ := h2 w1
    exact ⟨w2, ho2.trans ho, by simp only [rmSeekAll, he, he2]⟩

theorem plain_removeLoop {Q : KV → Prop} {U : Mach} {J : U.St → Prop} (h : Plain Q U J) (n : Nat) :
    ∀ {s : RemoveSt U}, J s.up →
      ∃ r s', J s'.up ∧ (∀ kv, r = .item kv → Q kv) ∧ Fixed (removeLoop U n s) r s' := by
  induction n with
  | zero => intro s hs; exact ⟨.fault .diverge, s, hs, by simp, fun w => ⟨w, rfl, rfl⟩⟩
  | succ n ih =>
    intro s hs
    obtain ⟨r, u1, hu1, hq, hfix⟩ := h.next hs
    cases r with
    | done =>
      refine ⟨.done, { s with up := u1 }, hu1, by simp, fun w => ?_⟩
      obtain ⟨w1, ho, he⟩ := hfix w
      exact ⟨w1, ho, by simp only [removeLoop, he]⟩
    | timeout =>
      refine ⟨.timeout, { s with up := u1 }, hu1, by simp, fun w => ?_⟩
      obtain ⟨w1, ho, he⟩ := hfix w
      exact ⟨w1, ho, by simp only [removeLoop, he]⟩
    | fault e =>
      refine ⟨.fault e, { s with up := u1 }, hu1, by simp, fun w => ?_⟩
      obtain ⟨w1, ho, he⟩ := hfix w
      exact ⟨w1, ho, by simp only [removeLoop, he]⟩
    | item kv =>
      obtain ⟨o, es, hfix2⟩ := matchKey_fixed s.view kv.1 s.entries []
      cases o with
      | none =>
        refine ⟨.fault .diverge, { s with up := u1, entries := es }, hu1, by simp, fun w => ?_⟩
        obtain ⟨w1, ho, he⟩ := hfix w
        obtain ⟨w2, ho2, he2⟩ := hfix2 w1
        exact ⟨w2, ho2.trans ho, by simp only [removeLoop, he, he2]⟩
      | some b =>
        cases b with
        | false =>
          refine ⟨.item kv, { s with up := u1, entries := es }, hu1, hq, fun w => ?_⟩
          obtain ⟨w1, ho, he⟩ := hfix w
          obtain ⟨w2, ho2, he2⟩ := hfix2 w1
          exact ⟨w2, ho2.trans ho, by simp only [removeLoop, he, he2]⟩
        | true =>
          obtain ⟨r3, s3, hs3, hq3, hfix3⟩ := ih (s := { s with up := u1, entries := es }) hu1
          refine ⟨r3, s3, hs3, hq3, fun w => ?_⟩
          obtain ⟨w1, ho, he⟩ := hfix w
          obtain ⟨w2, ho2, he2⟩ := hfix2 w1
          obtain ⟨w3, ho3, he3⟩ := hfix3 w2
          refine ⟨w3, ho3.trans (ho2.trans ho), ?_⟩
          simp only [removeLoop, he, he2]
          exact he3

theorem IsPlain.remove {Q : KV → Prop} {U : Mach} (h : IsPlain Q U) (rm : Option (List Src)) :
    IsPlain Q (withRemove rm U) := by
  cases rm with
  | none => exact h
  | some l =>
    obtain ⟨J, h⟩ := h
    refine ⟨fun s => J (RemoveSt.up s), fun V => h.start V, fun hu => plain_removeLoop h _ hu, ?_⟩
    intro (s : RemoveSt U) k hu
    obtain ⟨es, h1⟩ := rmSeekAll_fixed k s.entries
    obtain ⟨ok, u1, hu1, hfix⟩ := h.seek k hu
    refine ⟨ok, { s with up := u1, entries := es }, hu1, fun w => ?_⟩
    obtain ⟨w1, ho, he⟩ := h1 w
    obtain ⟨w2, ho2, he2⟩ := hfix w1
    refine ⟨w2, ho2.trans ho, ?_⟩
    show ((removeM l U).seek s k w) = _
    simp only [removeM, he, he2]
    rfl

/-! ## Left join -/

theorem ljoinLoop_fixed {mg : MergeFn} {L : Mach} {F : Src} {Q : KV → Prop} {kv : KV} (hk : Q kv)
    (hm : ∀ r v, r ∈ F.rows → r.1 = kv.1 → mg kv.1 kv.2 r.2 = .ok v → Q (kv.1, v))
    (hF : ∃ J, Plain (· ∈ F.rows) F.mach J) (n : Nat) :
    ∀ {s : LjoinSt L F.mach}, hF.choose s.right → (∀ r, s.rkv = some r → r ∈ F.rows) →
      ∃ r s', s'.left = s.left ∧ hF.choose s'.right ∧ (∀ r, s'.rkv = some r → r ∈ F.rows) ∧
        (∀ kv, r = .item kv → Q kv) ∧ Fixed (ljoinLoop mg L F.mach kv n s) r s' := by
  have hp := hF.choose_spec
  have key : ∀ x, Res.item kv = .item x → Q x := fun x hx => by cases hx; exact hk
  induction n with
  | zero => intro s hs hr; exact ⟨.fault .diverge, s, rfl, hs, hr, by simp, fun w => ⟨w, rfl, rfl⟩⟩
  | succ n ih =>
    intro s hs hr
    by_cases hf : s.finished = true
    · exact ⟨.item kv, s, rfl, hs, hr, key, fun w => ⟨w, rfl, if_pos hf⟩⟩
    · have hfetch : ∃ x s1, s1.left = s.left ∧ hF.choose s1.right ∧ (∀ r, s1.rkv = some r → r ∈ F.rows) ∧
          (∀ r, x = .item r → r ∈ F.rows) ∧ Fixed (ljoinFetch L F.mach s) x s1 := by
        obtain ⟨l, rt, fin, rkv⟩ := s
        cases rkv with
        | some r => exact ⟨.item r, ⟨l, rt, fin, some r⟩, rfl, hs, hr, fun x hx => by cases hx; exact hr r rfl,
            fun w => ⟨w, rfl, rfl⟩⟩
        | none =>
          obtain ⟨x, rt1, h1, h2, h3⟩ := hp.next hs
          cases x with
          | item r =>
            refine ⟨.item r, ⟨l, rt1, fin, some r⟩, rfl, h1, fun x hx => ?_, h2, fun w => ?_⟩
            · cases hx; exact h2 r rfl
            · obtain ⟨w1, ho, he⟩ := h3 w
              exact ⟨w1, ho, by simp only [ljoinFetch, he]⟩
          | done =>
            refine ⟨.done, ⟨l, rt1, fin, none⟩, rfl, h1, by simp, by simp, fun w => ?_⟩
            obtain ⟨w1, ho, he⟩ := h3 w
            exact ⟨w1, ho, by simp only [ljoinFetch, he]⟩
          | timeout =>
            refine ⟨.timeout, ⟨l, rt1, fin, none⟩, rfl, h1, by simp, by simp, fun w => ?_⟩
            obtain ⟨w1, ho, he⟩ := h3 w
            exact ⟨w1, ho, by simp only [ljoinFetch, he]⟩
          | fault e =>
            refine ⟨.fault e, ⟨l, rt1, fin, none⟩, rfl, h1, by simp, by simp, fun w => ?_⟩
            obtain ⟨w1, ho, he⟩ := h3 w
            exact ⟨w1, ho, by simp only [ljoinFetch, he]⟩
      have hff : s.finished = false := by simpa using hf
      obtain ⟨x, s1, hl1, hs1, hr1, hx, hfix⟩ := hfetch
      cases x with
      | done =>
        refine ⟨.item kv, { s1 with finished := true }, hl1, hs1, hr1, key, fun w => ?_⟩
        obtain ⟨w1, ho, he⟩ := hfix w
        exact ⟨w1, ho, by simp only [ljoinLoop, hff, he]; rfl⟩
      | timeout =>
        refine ⟨.timeout, s1, hl1, hs1, hr1, by simp, fun w => ?_⟩
        obtain ⟨w1, ho, he⟩ := hfix w
        exact ⟨w1, ho, by simp only [ljoinLoop, hff, he]; rfl⟩
      | fault e =>
        refine ⟨.fault e, s1, hl1, hs1, hr1, by simp, fun w => ?_⟩
        obtain ⟨w1, ho, he⟩ := hfix w
        exact ⟨w1, ho, by simp only [ljoinLoop, hff, he]; rfl⟩
      | item r =>
        cases hc : bytesCompare r.1 kv.1 with
        | gt =>
          refine ⟨.item kv, s1, hl1, hs1, hr1, key, fun w => ?_⟩
          obtain ⟨w1, ho, he⟩ := hfix w
          exact ⟨w1, ho, by simp only [ljoinLoop, hff, he, ljoinCompare, hc]; rfl⟩
        | eq =>
          cases hmg : mg kv.1 kv.2 r.2 with
          | ok v =>
            refine ⟨.item (kv.1, v), s1, hl1, hs1, hr1, fun x hx' => ?_, fun w => ?_⟩
            · cases hx'
              exact hm r v (hx r rfl) (bytesCompare_eq.1 hc) hmg
            · obtain ⟨w1, ho, he⟩ := hfix w
              exact ⟨w1.upd .ljoin fun c => { c with merged := c.merged + 1 }, ho,
                by simp only [ljoinLoop, hff, he, ljoinCompare, hc, hmg]; rfl⟩
          | fail =>
            refine ⟨.done, s1, hl1, hs1, hr1, by simp, fun w => ?_⟩
            obtain ⟨w1, ho, he⟩ := hfix w
            exact ⟨w1, ho, by simp only [ljoinLoop, hff, he, ljoinCompare, hc, hmg]; rfl⟩
          | fault e =>
            refine ⟨.fault e, s1, hl1, hs1, hr1, by simp, fun w => ?_⟩
            obtain ⟨w1, ho, he⟩ := hfix w
            exact ⟨w1, ho, by simp only [ljoinLoop, hff, he, ljoinCompare, hc, hmg]; rfl⟩
        | lt =>
          obtain ⟨ok, rt2, h2, hfix2⟩ := hp.seek kv.1 hs1
          cases ok with
          | false =>
            refine ⟨.item kv, { s1 with right := rt2, finished := true }, hl1, h2, hr1, key, fun w => ?_⟩
            obtain ⟨w1, ho, he⟩ := hfix w
            obtain ⟨w2, ho2, he2⟩ := hfix2 w1
            exact ⟨w2, ho2.trans ho, by simp only [ljoinLoop, hff, he, ljoinCompare, hc, he2]; rfl⟩
          | true =>
            obtain ⟨r3, s3, hl3, hs3, hr3, hq3, hfix3⟩ := ih (s := { s1 with right := rt2, rkv := none }) h2
              (by simp)
            refine ⟨r3, s3, hl3.trans hl1, hs3, hr3, hq3, fun w => ?_⟩
            obtain ⟨w1, ho, he⟩ := hfix w
            obtain ⟨w2, ho2, he2⟩ := hfix2 w1
            obtain ⟨w3, ho3, he3⟩ := hfix3 (w2.upd .ljoin fun c => { c with seek := c.seek + 1 })
            refine ⟨w3, ho3.trans (ho2.trans ho), ?_⟩
            simp only [ljoinLoop, hff, he, ljoinCompare, hc, he2]
            exact he3

theorem IsPlain.fill {Q : KV → Prop} {U : Mach} (h : IsPlain Q U) (fl : Option Src)
    (hm : ∀ F, fl = some F → ∀ k a b v, Q (k, a) → (k, b) ∈ F.rows → mergeFunc k a b = .ok v → Q (k, v)) :
    IsPlain Q (withFill fl U) := by
  cases fl with
  | none => exact h
  | some F =>
    obtain ⟨J, h⟩ := h
    have hF := plain_cur F.rows F.seekFails
    have hp := hF.choose_spec
    refine ⟨fun s => J s.left ∧ hF.choose s.right ∧ ∀ r, s.rkv = some r → r ∈ F.rows,
      fun V => ⟨h.start V, hp.start V, fun r hr => by cases hr⟩, ?_, ?_⟩
    · rintro s ⟨hl, hr, hk⟩
      obtain ⟨r, u1, hu1, hq, hfix⟩ := h.next hl
      cases r with
      | item kv =>
        obtain ⟨r2, s2, h1, h2, h3, h4, hfix2⟩ := ljoinLoop_fixed (mg := mergeFunc) (L := U) (hq kv rfl)
          (fun r v hr1 hr2 hr3 => hm F rfl kv.1 kv.2 r.2 v (hq kv rfl)
            (by rw [← hr2]; exact hr1) hr3) hF (F.mach.size s.right + 3)
            (s := { s with left := u1 }) hr hk
        refine ⟨r2, s2, ⟨h1 ▸ hu1, h2, h3⟩, h4, fun w => ?_⟩
        obtain ⟨w1, ho, he⟩ := hfix w
        obtain ⟨w2, ho2, he2⟩ := hfix2 w1
        refine ⟨w2, ho2.trans ho, ?_⟩
        simp only [withFill, ljoinM, he]
        exact he2
      | done =>
        refine ⟨.done, { s with left := u1 }, ⟨hu1, hr, hk⟩, by simp, fun w => ?_⟩
        obtain ⟨w1, ho, he⟩ := hfix w
        exact ⟨w1, ho, by simp only [withFill, ljoinM, he]⟩
      | timeout =>
        refine ⟨.timeout, { s with left := u1 }, ⟨hu1, hr, hk⟩, by simp, fun w => ?_⟩
        obtain ⟨w1, ho, he⟩ := hfix w
        exact ⟨w1, ho, by simp only [withFill, ljoinM, he]⟩
      | fault e =>
        refine ⟨.fault e, { s with left := u1 }, ⟨hu1, hr, hk⟩, by simp, fun w => ?_⟩
        obtain ⟨w1, ho, he⟩ := hfix w
        exact ⟨w1, ho, by simp only [withFill, ljoinM, he]⟩
    · rintro s k ⟨hl, hr, hk⟩
      obtain ⟨ok, u1, hu1, hfix⟩ := h.seek k hl
      cases ok with
      | false =>
        refine ⟨false, { s with left := u1 }, ⟨hu1, hr, hk⟩, fun w => ?_⟩
        obtain ⟨w1, ho, he⟩ := hfix w
        exact ⟨w1, ho, by simp only [withFill, ljoinM, he]⟩
      | true =>
        obtain ⟨ok, u2, hu2, hfix2⟩ := hp.seek k hr
        refine ⟨true, ⟨u1, u2, !ok, none⟩, ⟨hu1, hu2, fun r hr => by cases hr⟩, fun w => ?_⟩
        obtain ⟨w1, ho, he⟩ := hfix w
        obtain ⟨w2, ho2, he2⟩ := hfix2 w1
        refine ⟨w2, ho2.trans ho, ?_⟩
        have h3 : F.mach.seek s.right k w1 = (ok, u2, w2) := he2
        simp only [withFill, ljoinM, he]
        exact congrArg (fun x => (true, (⟨u1, x.2.1, !x.1, none⟩ : LjoinSt U F.mach), x.2.2)) h3

theorem IsPlain.times {Q : KV → Prop} {U : Mach} (h : IsPlain Q U) (q : Query) (rm : Option (List Src))
    (fl : Option Src)
    (hm : ∀ F, fl = some F → ∀ k a b v, Q (k, a) → (k, b) ∈ F.rows → mergeFunc k a b = .ok v → Q (k, v)) :
    IsPlain Q (withTimes q rm fl U) := by
  unfold withTimes
  split
  · exact (((h.filter _ _).remove rm).fill fl hm).filter _ _
  · exact h.fill fl hm

end Verif
