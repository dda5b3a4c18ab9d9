import Verif.Lemmas.LiveMeets
import Verif.Props.QueryFilter
import Verif.Props.Addr

/-!
# C67: changing a query while one of its iterators is open
-/

namespace Verif.Props
open Verif Verif.Spec

/-- C67: as long as a program only changes the data, case sensitivity, aggregation, timeout and deadline of a query (for address
queries not the data), an iterator opened before gives the answers it gives if the query is not changed, with the timeout and
deadline of the time of each call. -/
theorem C67_unchanged (A : Arith) (T : Libs) (q0 : Query) (p : Plan) (hp : initKind q0 = .ok p) (S : Sources)
    (os : List LiveOp) (ho : ∀ x, .set x ∈ os → Harmless q0.qType x) (w : World) (hw : w.offset = q0.offset) :
    (liveRun A T q0 (liveAssemble q0 S p) os q0 ((liveAssemble q0 S p).at q0).start w).map LiveCall.call =
      queryRun q0 (assemble q0 S p) (limitsAt q0.lim os) (assemble q0 S p).start w := by
  rw [liveRun_harmless hp S os q0 _ w ⟨rfl, rfl, rfl, rfl⟩ rfl hw ho, liveAssemble_at hp S]

/-- The times of an entry whose row passed the time filter. -/
theorem live_times {b : Bounds} {R : Src} {fill : Option Src} {P : KV → Prop} (hP : ∀ kv, P kv → kv ∈ R.rows)
    (hz : b.lastBefore = none ∨ (∃ x, b.lastAfter = some x ∧ 0 < x) ∨
      (LastSeen R.rows ∧ ∀ F, fill = some F → LastSeen F.rows))
    {key val : Bytes} {e : Entry} (hj : JoinsTo mergeFunc P (FillRow fill) (key, val))
    (ht : timeMatch b false val = .ok true) (m4 : (∃ buf, key = 0 :: buf) ∨ ∃ buf, key = 2 :: buf)
    (hd : entryDecode key val = .ok e) {t : Nat × Nat} (hs : shownTimes e = some t) : WithinBounds b t := by
  have hhead : key.head? = some 0 ∨ key.head? = some 2 := by
    rcases m4 with ⟨buf, rfl⟩ | ⟨buf, rfl⟩
    · exact .inl rfl
    · exact .inr rfl
  obtain ⟨f, l, cnt, hu, hst⟩ : ∃ f l c, tripletUnpack val = .ok (f, l, c) ∧
      shownTimes e = some (f, if l = 0 then f else l) := by
    rcases m4 with ⟨buf, rfl⟩ | ⟨buf, rfl⟩
    · obtain ⟨own, bw, nt, t, rest, f, l, c, -, -, -, -, -, -, hu, h0, -, -, h1, h2⟩ := decode_rrset_shape rfl hd
      exact ⟨f, l, c, hu, by rw [(shown_of_rrset h0).2.1, h1, h2]⟩
    · obtain ⟨lo, hi, nt, t, f, l, c, -, -, -, -, hu, h0, -, h1, h2⟩ := decode_rdata_shape rfl hd
      exact ⟨f, l, c, hu, by rw [(shown_of_rdata h0).2, h1, h2]⟩
  have hz' : b.lastBefore = none ∨ l ≠ 0 ∨ ∃ x, b.lastAfter = some x ∧ 0 < x := by
    rcases hz with h | h | ⟨hR, hF⟩
    · exact .inl h
    · exact .inr (.inr h)
    · refine .inr (.inl ?_)
      rcases hj with h1 | ⟨v, r, h1, ⟨F, hfl, hr⟩, hcmp, hm⟩
      · obtain ⟨f', l', c', hf', hl', hc', hne, hval⟩ := hR _ (hP _ h1) hhead
        simp only at hval
        rw [hval, tripletUnpack_pack hf' hl' hc'] at hu
        cases hu
        exact hne
      · obtain ⟨f0, l0, c0, hf0, hl0, hc0, hne0, hv0⟩ := hR _ (hP _ h1) hhead
        simp only at hv0 hm hcmp
        have hk := bytesCompare_eq.mp hcmp
        obtain ⟨f1, l1, c1, hf1, hl1, hc1, hne1, hv1⟩ := hF F hfl r hr (by rw [hk]; exact hhead)
        rw [hv0, hv1, C04_merge_triplets key hhead f0 l0 c0 f1 l1 c1 ⟨hf0, hl0, hc0⟩ ⟨hf1, hl1, hc1⟩] at hm
        cases hm
        rw [tripletUnpack_pack (by omega) (by omega) (Nat.mod_lt _ (by decide))] at hu
        cases hu
        omega
  rw [hst] at hs
  cases hs
  exact within_of_match hu ht hz'

/-- C67, partial: whatever setters a program calls between the calls of `dnstable_iter_next`, every entry an iterator for RRsets,
names, addresses or raw data returns meets each criterion that its query had when the iterator was opened, with the value the
criterion has at the time of the call that returns the entry (a query for one name and type keeps the type and bailiwick it was opened
with).  This is for every table (however malformed), every index, removal sources and fill merger of a file set, and all time
limits.  What is missing for the time bounds is the same as in `C44_returned_partial`; the counterexamples below show that
criteria that the query did not have when the iterator was opened are not applied. -/
theorem C67_current_partial (A : Arith) (T : Libs) (q0 : Query) (p : Plan) (hp : initKind q0 = .ok p)
    (hq : q0.qType = .rrset ∨ q0.qType = .rdataName ∨ q0.qType = .rdataIp ∨ q0.qType = .rdataRaw)
    (hty : q0.rrtype < 65536) (hbw : ∀ b, q0.bailiwick = some b → ∃ n, legalName n ∧ b = wire n)
    (R : Src) (index : Mach) (rm : Option (List Src)) (fill : Option Src) (os : List LiveOp) (w : World) (c : LiveCall)
    (hc : c ∈ liveRun A T q0 (liveAssemble q0 ⟨R.mach, index, rm, fill⟩ p) os q0
      ((liveAssemble q0 ⟨R.mach, index, rm, fill⟩ p).at q0).start w)
    (hz : c.query.bounds.lastBefore = none ∨ (∃ x, c.query.bounds.lastAfter = some x ∧ 0 < x) ∨
      (LastSeen R.rows ∧ ∀ F, fill = some F → LastSeen F.rows))
    (e : Entry) (he : c.res = .entry e) : Obeys q0 c.query e := by
  obtain ⟨hty', hem⟩ := live_emits q0 R index rm fill p os w hty hc
  obtain ⟨V, ⟨key, val⟩, hV, ⟨hj, ht⟩, hd⟩ := hem e he
  simp only at hd ht
  obtain ⟨v, hok, hf⟩ : ∃ v, V.ok key = true ∧
      ∀ f ∈ p.onSource, liveFilter q0 p.view.lo.length f c.query (key, v) = .pass := by
    rcases hj with ⟨⟨h1, h2⟩, h3⟩ | ⟨v, r, ⟨⟨h1, h2⟩, h3⟩, -⟩
    · exact ⟨val, h2, h3⟩
    · exact ⟨v, h2, h3⟩
  obtain ⟨h1, h2⟩ := obeys_key hp hq hty hty'
    (fun b hb => by obtain ⟨n, hn, h⟩ := hbw b hb; exact ⟨n, hn.1, h⟩) hV hok hf hd
  exact h1 fun t hb hs => live_times (fun kv h => h.1.1) hz hj (ht hb) h2 hd hs

/-! ## Examples -/

/-- Two RRsets at `a.com`, of the types A and MX, last seen at 6 and 16. -/
def exLive : Table :=
  [([0, 3, 99, 111, 109, 1, 97, 0, 1, 3, 99, 111, 109, 0, 4, 1, 2, 3, 4], [5, 6, 1]),
   ([0, 3, 99, 111, 109, 1, 97, 0, 15, 3, 99, 111, 109, 0, 3, 0, 1, 0], [5, 16, 1])]

/-- The query for `a.com` with an upper bound on the last-seen time. -/
def exLiveQuery : Query :=
  { qType := .rrset, name := [1, 97, 3, 99, 111, 109, 0], rrtype := 1, bounds := { lastBefore := some 20 } }

/-- What a program sees of an iterator over `T` whose query is changed: type and last-seen time. -/
def exSeen (q : Query) (p : Plan) (T : Table) (os : List LiveOp) : List (Option (Nat × Nat)) :=
  let L := liveAssemble q (plainSources (curM T fun _ _ => false)) p
  (liveRun strictArith exLibs q L os q (L.at q).start (exWorld q.offset)).map fun c =>
    match c.res with
    | .entry e => some (e.rrtype, e.timeLast)
    | _ => none

/-- Changing the data and setting a deadline does not change the answers of an iterator that is open. -/
example :
    let p : Plan := { view := .pfx [0, 3, 99, 111, 109, 1, 97, 0] }
    initKind exLiveQuery = .ok p ∧
    (∀ x, .set x ∈ [LiveOp.next, .set (.data (some (lit "B."))), .set (.deadline (some ⟨90, 0⟩)), .next, .next] →
      Harmless exLiveQuery.qType x) ∧
    exSeen exLiveQuery p exLive [.next, .set (.data (some (lit "B."))), .set (.deadline (some ⟨90, 0⟩)), .next, .next] =
      [some (1, 6), some (15, 16), none] := by
  refine ⟨exACom_plan _ rfl rfl rfl rfl, ?_, by decide +kernel⟩
  intro x hx
  simp only [List.mem_cons, List.not_mem_nil, or_false, reduceCtorEq, false_or, LiveOp.set.injEq] at hx
  rcases hx with rfl | rfl
  · exact fun h => by (cases h)
  · trivial

/-- An iterator opened with an upper bound on the last-seen time applies the bound the query has now: with the bound lowered to 7 the
second RRset is not returned, with the bound taken away it is. -/
example :
    let p : Plan := { view := .pfx [0, 3, 99, 111, 109, 1, 97, 0] }
    initKind exLiveQuery = .ok p ∧
    exSeen exLiveQuery p exLive [.next, .set (.filterParam 2 (some 7) 8), .next] = [some (1, 6), none] ∧
    exSeen exLiveQuery p exLive [.next, .set (.filterParam 2 none 8), .next] = [some (1, 6), some (15, 16)] :=
  ⟨exACom_plan _ rfl rfl rfl rfl, by decide +kernel, by decide +kernel⟩

/-- The `LastSeen` hypothesis of `C67_current_partial` holds of these rows. -/
example : LastSeen exLive := by
  intro kv hkv hk
  simp only [exLive, List.mem_cons, List.not_mem_nil, or_false] at hkv
  rcases hkv with rfl | rfl
  · exact ⟨5, 6, 1, by decide, by decide, by decide, by decide, by decide +kernel⟩
  · exact ⟨5, 16, 1, by decide, by decide, by decide, by decide, by decide +kernel⟩

/-- The answers of an iterator that is open depend on the setters called since: the same program with and without a call of
`dnstable_query_set_filter_parameter` in between. -/
theorem C67_changed_counterexample : ∃ (q : Query) (p : Plan) (T : Table) (x : Setter), initKind q = .ok p ∧
    exSeen q p T [.next, .set x, .next] ≠ exSeen q p T [.next, .next] :=
  ⟨exLiveQuery, { view := .pfx [0, 3, 99, 111, 109, 1, 97, 0] }, exLive, .filterParam 2 (some 7) 8,
    exACom_plan _ rfl rfl rfl rfl, by decide +kernel⟩

/-- A bound set while an iterator is open is not applied if the query had no bound when the iterator was opened: an entry is
returned that `dnstable_query_filter` with the query as it is now rejects. -/
theorem C67_ignored_counterexample :
    ∃ (q : Query) (p : Plan) (T : Table) (x : Setter) (c : LiveCall) (e : Entry), initKind q = .ok p ∧
      (let L := liveAssemble q (plainSources (curM T fun _ _ => false)) p
       c ∈ liveRun strictArith exLibs q L [.set x, .next] q (L.at q).start (exWorld q.offset)) ∧
      c.res = .entry e ∧ queryFilter c.query e = .ok false := by
  let q : Query := { exLiveQuery with bounds := {} }
  let q1 : Query := { exLiveQuery with bounds := { lastBefore := some 5 } }
  let p : Plan := { view := .pfx [0, 3, 99, 111, 109, 1, 97, 0] }
  let L := liveAssemble q (plainSources (curM exLive fun _ _ => false)) p
  let r := liveNext q L q1 (L.at q).start (exWorld 0)
  let e : Entry := { eType := 0, name := [1, 97, 3, 99, 111, 109, 0], bailiwick := [3, 99, 111, 109, 0],
                     rrtype := 1, rdatas := [[1, 2, 3, 4]], timeFirst := 5, timeLast := 6, count := 1 }
  exact ⟨q, p, exLive, .filterParam 2 (some 5) 8, ⟨q1, exWorld 0, r.2.2.2, r.1⟩, e, exACom_plan q rfl rfl rfl rfl,
    List.mem_cons_self, by decide +kernel, by decide +kernel⟩

/-- The type taken away from a query (`dnstable_query_set_rrtype` with NULL) still applies to an iterator opened before: of two
records whose data begins with the bytes 1 and 2, the one of type MX is not returned. -/
theorem C67_type_kept_counterexample :
    ∃ (q : Query) (p : Plan) (T : Table), initKind q = .ok p ∧ initKind { q with doRrtype := false } = .ok { p with onSource := [] } ∧
      exSeen q p T [.set (.rrtype none), .next, .next] = [some (1, 6), none] ∧
      exSeen { q with doRrtype := false } { p with onSource := [] } T [.next, .next] = [some (1, 6), some (15, 16)] :=
  ⟨{ qType := .rdataRaw, rdata := some [1, 2], lenRdata := 2, doRrtype := true, rrtype := 1 },
    { onSource := [(.filterRrtype, filterRrtype 1)], view := .pfx [2, 1, 2] },
    [([2, 1, 2, 3, 4, 1, 1, 97, 0, 4, 0], [5, 6, 1]), ([2, 1, 2, 3, 97, 0, 15, 1, 97, 0, 5, 0], [5, 16, 1])],
    rfl, rfl, by decide +kernel, by decide +kernel⟩

/-- `dnstable_query_set_rrtype` on an address query whose iterator is open can make the next call of `dnstable_iter_next` abort;
without it the call ends normally.  The table holds one TXT record. -/
theorem C67_abort_counterexample :
    ∃ (q : Query) (p : Plan) (T : Table), initKind q = .ok p ∧
      (let L := liveAssemble q (plainSources (curM T fun _ _ => false)) p
       (liveRun strictArith exLibs q L [.next] q (L.at q).start (exWorld 0)).map (·.res) = [.failure] ∧
       (liveRun strictArith exLibs q L [.set (.rrtype (some (lit "MX"))), .next] q (L.at q).start (exWorld 0)).map (·.res) =
         [.fault .abort]) :=
  ⟨{ qType := .rdataIp, doRrtype := true, rrtype := 1, ip1 := [1, 2, 3, 4], ip2 := [1, 2, 3, 9] },
    { onSource := [(.filterRrtype, filterRrtypeIp 1 6)], view := .range [2, 1, 2, 3, 4, 1] [2, 1, 2, 3, 9, 2] },
    [([2, 1, 2, 3, 4, 15, 0, 16, 1, 97, 0, 6, 0], [5, 6, 1])],
    by (unfold initKind initRdataIp
        have h1 : addRrtype [2, 1, 2, 3, 4] 1 = .ok [2, 1, 2, 3, 4, 1] := by decide +kernel
        have h2 : addRrtype [2, 1, 2, 3, 9] 1 = .ok [2, 1, 2, 3, 9, 1] := by decide +kernel
        have h3 : incrementKey [2, 1, 2, 3, 9, 1] 5 = .ok (true, [2, 1, 2, 3, 9, 2]) := by decide +kernel
        simp [h1, h2, h3, Out.assert]), by decide +kernel, by decide +kernel⟩

end Verif.Props
