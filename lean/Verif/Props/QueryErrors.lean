import Verif.Lemmas.QueryMem

/-! # C61: error texts of queries -/

namespace Verif.Props
open Verif Verif.Spec

/-- A new query, and then calls of the user. -/
def queryLife (A : Arith) (L : Libs) (t : QType) (cs : List QueryCall) : Mem (QueryMem × List QueryAnswer) := do
  let m ← queryInitMem t
  queryCallsMem A L m cs

private theorem does_life (A : Arith) (L : Libs) (t : QType) (ht : t ≠ .sourceInfo) (cs : List QueryCall)
    {q : Query} {bs : List Bool} (hc : applySetters A L { qType := t } (settersOf cs) = .ok (q, bs))
    (F : List (Nat × Bytes)) :
    Does (queryLife A L t cs) F fun a R' => ∃ e, R'.Perm (a.1.own e ++ F) ∧ a.1.q = q ∧
      Told A L { qType := t } (settersOf cs) a.1.q (a.1.text e) := by
  refine (does_queryInit t ht F).bind ?_
  rintro m R ⟨hq, he, hp⟩
  refine .perm hp ?_
  refine (does_calls A L m cs q bs (by rw [hq]; exact hc) [] F).weaken ?_
  rintro a R' ⟨e, hp', h1, h2, h3, -⟩
  refine ⟨e, hp', h1, ?_⟩
  have := h3 { qType := t } [] (by
    rw [hq, QueryMem.text, if_pos he]
    exact .new)
  rw [List.nil_append] at this
  exact this

private theorem life_ok (A : Arith) (L : Libs) (t : QType) (ht : t ≠ .sourceInfo) (cs : List QueryCall) (h : Heap)
    (hs : h.Sane) {m : QueryMem} {as : List QueryAnswer} {h' : Heap} (hr : queryLife A L t cs h = .ok ((m, as), h')) :
    ∃ e, Owned h' (m.own e ++ h.live) ∧ Told A L { qType := t } (settersOf cs) m.q (m.text e) := by
  have H : Owned h h.live := ⟨hs, List.Perm.refl _⟩
  cases hc : applySetters A L { qType := t } (settersOf cs) with
  | ok r =>
    obtain ⟨q, bs⟩ := r
    obtain ⟨a, h1, R1, e1, H1, e, hp, -, ht⟩ := does_life A L t ht cs hc h.live h H
    rw [hr] at e1
    cases e1
    exact ⟨e, H1.mono hp, ht⟩
  | fail =>
    have := ((does_queryInit t ht h.live).breaks (k := fun m => queryCallsMem A L m cs)
      (o := applySetters A L { qType := t } (settersOf cs)) (by
        rintro m R ⟨hq, -, hp⟩
        rw [← hq]
        exact (breaks_calls A L m cs [] h.live).perm hp) h H).1 hc
    rw [queryLife] at hr
    rw [this] at hr
    cases hr
  | fault f =>
    have := ((does_queryInit t ht h.live).breaks (k := fun m => queryCallsMem A L m cs)
      (o := applySetters A L { qType := t } (settersOf cs)) (by
        rintro m R ⟨hq, -, hp⟩
        rw [← hq]
        exact (breaks_calls A L m cs [] h.live).perm hp) h H).2 f hc
    rw [queryLife] at hr
    rw [this] at hr
    cases hr

/-- C61: after any calls on a query, `dnstable_query_get_error` returns a readable string: the text of the latest
failure that has a text, or "unknown error" if there was none.  Which failures have a text, and which, is given by
`Complains` and `Silent`.  Partial: the failures of `Silent` have no text (see the counterexample). -/
theorem C61_told_partial (A : Arith) (L : Libs) (t : QType) (ht : t ≠ .sourceInfo) (cs : List QueryCall) (h : Heap)
    (hs : h.Sane) (m : QueryMem) (as : List QueryAnswer) (h' : Heap)
    (hr : queryLife A L t cs h = .ok ((m, as), h')) :
    ∃ text, Told A L { qType := t } (settersOf cs) m.q text ∧
      ∃ m' p h'', getErrorMem m h' = .ok ((m', p), h'') ∧ mLoad p h'' = .ok (text, h'') := by
  obtain ⟨e, H, hT⟩ := life_ok A L t ht cs h hs hr
  refine ⟨_, hT, ?_⟩
  obtain ⟨⟨m', p⟩, h2, R2, e2, H2, e', hp, h3, h4, h5, h6, h7⟩ := does_getError m e h.live h' H
  refine ⟨m', p, h2, e2, ?_⟩
  simp only at hp h5 h6
  refine load_of_owned (H2.mono hp) ?_
  have : m.text e = e' := by
    unfold QueryMem.text
    cases he : m.err with
    | none => rw [if_pos rfl, h7 he]
    | some k => rw [if_neg nofun, (h6 (by rw [he]; rfl)).2]
  rw [this]
  unfold QueryMem.own
  rw [h5]
  simp [blk]

/-- C61: each failure is of exactly one of the two kinds: with a text or without. -/
theorem C61_kinds (A : Arith) (L : Libs) (q q' : Query) (s : Setter) (h : applySetter A L q s = .ok (q', false)) :
    ((∃ e, Complains L q s e) ∧ ¬ Silent L q s) ∨ ((∀ e, ¬ Complains L q s e) ∧ Silent L q s) := by
  have H : Owned (⟨1, [(0, [])]⟩ : Heap) ((⟨0, q, none, none, none, none⟩ : QueryMem).own [] ++ []) :=
    ⟨⟨by simp, by simp⟩, by simp [QueryMem.own, blk]⟩
  obtain ⟨a, h1, R1, e1, H1, e', hp, h2, h3, h4, h5⟩ := sets_setter A L ⟨0, q, none, none, none, none⟩ s h [] [] _ H
  cases h5 with
  | kept k1 k2 k3 => exact .inr ⟨fun e he => complains_not_silent he (k3 h3), k3 h3⟩
  | wrote k1 k2 k3 => exact .inl ⟨⟨e', k3⟩, complains_not_silent k3⟩

/-- C61: the string stays readable and the same, whatever is done with the query, until a call fails with a new text (or
the query is destroyed). -/
theorem C61_valid (A : Arith) (L : Libs) (t : QType) (ht : t ≠ .sourceInfo) (cs ds : List QueryCall) (h : Heap)
    (hs : h.Sane) (m m' m'' : QueryMem) (p : Nat) (text : Bytes) (as bs : List QueryAnswer) (h1 h2 h3 : Heap)
    (hr : queryLife A L t cs h = .ok ((m, as), h1)) (hg : getErrorMem m h1 = .ok ((m', p), h2))
    (hl : mLoad p h2 = .ok (text, h2)) (hq : Quiet A L m'.q (settersOf ds))
    (hd : queryCallsMem A L m' ds h2 = .ok ((m'', bs), h3)) : mLoad p h3 = .ok (text, h3) := by
  obtain ⟨e, H, -⟩ := life_ok A L t ht cs h hs hr
  obtain ⟨⟨m1, p1⟩, k2, R2, e2, H2, e', hp, j3, j4, j5, -, -⟩ := does_getError m e h.live h1 H
  rw [hg] at e2
  cases e2
  simp only at hp j5
  have H2' := H2.mono hp
  have he : text = e' := by
    have := load_of_owned H2' (p := p) (b := e') (by unfold QueryMem.own; rw [j5]; simp [blk])
    rw [hl] at this
    cases this
    rfl
  subst he
  cases hc : applySetters A L m'.q (settersOf ds) with
  | ok r =>
    obtain ⟨q', b⟩ := r
    obtain ⟨a, h4, R4, e4, H4, e'', hp4, -, -, -, hk⟩ := does_calls A L m' ds q' b hc text h.live h2 H2'
    rw [hd] at e4
    cases e4
    obtain ⟨i1, rfl⟩ := hk (by rw [j5]; rfl) hq
    simp only at i1
    refine load_of_owned (H4.mono hp4) ?_
    unfold QueryMem.own
    rw [i1, j5]
    simp [blk]
  | fail =>
    have := (breaks_calls A L m' ds text h.live h2 H2').1 hc
    rw [hd] at this
    cases this
  | fault f =>
    have := (breaks_calls A L m' ds text h.live h2 H2').2 f hc
    rw [hd] at this
    cases this

/-- Library functions that know no names, addresses or types. -/
private def nothingKnown : Libs := ⟨fun _ => none, fun _ => none, fun _ => none, id, fun _ => 0⟩

/-- C61 is false in general: after the record type "X" is refused, malformed raw data is refused as well, and the error
text is still the one about the record type. -/
theorem C61_stale_counterexample : ∃ (A : Arith) (L : Libs) (m m' : QueryMem) (p : Nat) (h' h'' : Heap),
    queryLife A L .rdataRaw [.set (.rrtype (some (lit "X"))), .set (.data (some (lit "0g")))] {} =
      .ok ((m, [.result false, .result false]), h') ∧
    getErrorMem m h' = .ok ((m', p), h'') ∧ mLoad p h'' = .ok (lit "unknown rrtype mnemonic", h'') := by
  refine ⟨x86Arith, nothingKnown, _, _, _, _, _, rfl, rfl, ?_⟩
  decide +kernel

/-- C61 is false in general: a range of one part is refused without any text. -/
theorem C61_unknown_counterexample : ∃ (A : Arith) (L : Libs) (m m' : QueryMem) (p : Nat) (h' h'' : Heap),
    queryLife A L .rdataIp [.set (.data (some (lit "192.0.2.1-")))] {} = .ok ((m, [.result false]), h') ∧
    getErrorMem m h' = .ok ((m', p), h'') ∧ mLoad p h'' = .ok (lit "unknown error", h'') := by
  refine ⟨x86Arith, nothingKnown, _, _, _, _, _, rfl, rfl, ?_⟩
  decide +kernel

/-- The hypotheses of the theorems can be met: a failure with a text, the text read, a success, the text read again. -/
example : ∃ m m' m'' p h1 h2 h3,
    queryLife x86Arith nothingKnown .rrset [.set (.data (some (lit "."))), .getError, .set (.offset 3)] {} =
      .ok ((m, [.result false, .text 1, .result true]), h1) ∧
    getErrorMem m h1 = .ok ((m', p), h2) ∧ mLoad p h2 = .ok (lit "wdns_str_to_name() failed", h2) ∧
    queryCallsMem x86Arith nothingKnown m' [.set (.aggregated false)] h2 = .ok ((m'', [.result true]), h3) ∧
    mLoad p h3 = .ok (lit "wdns_str_to_name() failed", h3) := by
  refine ⟨_, _, _, _, _, _, _, rfl, rfl, ?_, rfl, ?_⟩ <;> decide +kernel

example : Quiet x86Arith nothingKnown { qType := .rrset } [.aggregated false, .filterParam 9 none 8] :=
  ⟨_, true, rfl, nofun, _, false, rfl, fun _ => .parameter 9 none 8, trivial⟩

end Verif.Props
