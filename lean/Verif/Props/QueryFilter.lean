import Verif.Lemmas.QueryFilter
import Verif.Props.Merge
import Verif.Props.Timeouts

/-!
# C44, C28: applying a query's criteria to an entry
-/

namespace Verif.Props
open Verif Verif.Spec

/-- C44: `dnstable_query_filter` accepts an entry exactly when it has the requested type, the requested
bailiwick and times within every bound that is set.  It gives a verdict or reports failure (for
entries without the attribute asked for); for RRsets it always gives a verdict.  Bailiwicks longer than a
domain name cannot be set. -/
theorem C44_filter (q : Query) (e : Entry) (hq : ∀ b, q.bailiwick = some b → b.length ≤ 255) :
    (queryFilter q e = .ok true ↔ Meets q e) ∧ (queryFilter q e).safe ∧
      (e.eType = 0 → ∃ b, queryFilter q e = .ok b) := by
  refine ⟨queryFilter_true hq, queryFilter_safe e hq, fun h0 => ?_⟩
  have hs := queryFilter_safe e hq
  rcases hr : queryFilter q e with b | _ | f
  · exact ⟨b, rfl⟩
  · exfalso
    obtain ⟨s1, s2, s3⟩ := shown_of_rrset h0
    have hA : ∃ b, filterEntryType q e = .ok b := by
      unfold filterEntryType
      rw [getRrtype_shown, s1]
      simp only [Out.ofOption, Out.ok_bind]
      split
      · exact ⟨_, rfl⟩
      · split <;> exact ⟨_, rfl⟩
    have hT : ∀ (a b : Option Nat) (t : Nat), ∃ r, filterEntryTime a b (.ok t) = .ok r := by
      intro a b t
      unfold filterEntryTime
      simp only [Out.ok_bind]
      split
      · split
        · exact ⟨_, rfl⟩
        · split <;> exact ⟨_, rfl⟩
      · exact ⟨_, rfl⟩
    have hB : filterEntryBailiwick q e ≠ .fail := by
      unfold filterEntryBailiwick
      split
      · rw [getBailiwick_shown, s3]
        simp only [Out.ofOption, Out.ok_bind]
        split
        · simp
        · split
          · simp
          · simp
          · split <;> simp
      · simp
    obtain ⟨a, hA⟩ := hA
    have t1 : e.getTimeFirst = .ok e.timeFirst := by rw [getTimeFirst_shown, s2]; rfl
    have t2 : e.getTimeLast = .ok e.timeLast := by rw [getTimeLast_shown, s2]; rfl
    obtain ⟨b, hb⟩ := hT q.bounds.firstBefore q.bounds.firstAfter e.timeFirst
    obtain ⟨c, hc⟩ := hT q.bounds.lastBefore q.bounds.lastAfter e.timeLast
    unfold queryFilter at hr
    rw [hA, t1, t2, hb, hc] at hr
    cases a <;> cases b <;> cases c <;> simp at hr
    exact hB hr
  · rw [hr] at hs; exact hs.elim

/-- An A RRset at `a.com` seen from 5 to 9 in the bailiwick `com`: a query with a type, the bailiwick
and all four bounds accepts it; another bailiwick, and a time just outside, are rejected. -/
example :
    let e : Entry := { eType := 0, name := [1, 97, 3, 99, 111, 109, 0], bailiwick := [1, 97, 3, 99, 111, 109, 0],
                       rrtype := 1, timeFirst := 5, timeLast := 9, count := 1 }
    let q : Query := { qType := .rrset, doRrtype := true, rrtype := 1, bailiwick := some [3, 99, 111, 109, 1, 97, 0],
                       bounds := ⟨some 5, some 5, some 9, some 9⟩ }
    queryFilter q e = .ok true ∧
    queryFilter { q with bailiwick := some [1, 97, 3, 99, 111, 109, 0] } e = .ok false ∧
    queryFilter { q with bounds := ⟨some 5, some 5, some 8, some 9⟩ } e = .ok false ∧
    queryFilter q { e with eType := 2 } = .fail := by
  decide +kernel

/-- Every RRset and record in the table has a last-seen time. -/
def LastSeen (T : Table) : Prop :=
  ∀ kv ∈ T, (kv.1.head? = some 0 ∨ kv.1.head? = some 2) →
    ∃ f l c, f < 2 ^ 64 ∧ l < 2 ^ 64 ∧ c < 2 ^ 64 ∧ l ≠ 0 ∧ kv.2 = tripletPack f l c

/-- What the next two theorems say of an entry. -/
def Accepted (q : Query) (e : Entry) : Prop :=
  queryFilter q e = .ok true ∧
    ∃ first last, e.getTimeFirst = .ok first ∧ e.getTimeLast = .ok last ∧ WithinBounds q.bounds (first, last)

theorem returned_accepted (q : Query) (p : Plan) (hp : initKind q = .ok p)
    (hq : q.qType = .rrset ∨ q.qType = .rdataName ∨ q.qType = .rdataIp ∨ q.qType = .rdataRaw)
    (hty : q.doRrtype = true → q.rrtype < 65536)
    (hbw : ∀ b, q.bailiwick = some b → ∃ n, legalName n ∧ b = wire n)
    (R : Src) (index : Mach) (rm : Option (List Src)) (fill : Option Src)
    (hz : q.bounds.lastBefore = none ∨ (∃ x, q.bounds.lastAfter = some x ∧ 0 < x) ∨
      (LastSeen R.rows ∧ ∀ F, fill = some F → LastSeen F.rows))
    (ls : List Limits) (w : World) (c : Call)
    (hc : c ∈ queryRun q (assemble q ⟨R.mach, index, rm, fill⟩ p) ls
      (assemble q ⟨R.mach, index, rm, fill⟩ p).start w)
    (e : Entry) (he : c.res = .entry e) : Accepted q e := by
  obtain ⟨V, ⟨key, val⟩, hV, ⟨hj, ht⟩, hd⟩ := query_emits q R index rm fill p ls w hc he
  simp only at hd ht
  have hlen : ∀ b, q.bailiwick = some b → b.length ≤ 255 := by
    intro b hb
    obtain ⟨n, hn, rfl⟩ := hbw b hb
    exact hn.2
  obtain ⟨v, hmem, hok, hf⟩ : ∃ v, (key, v) ∈ R.rows ∧ V.ok key = true ∧ ∀ f ∈ p.onSource, f.2 (key, v) = .pass := by
    rcases hj with ⟨⟨h1, h2⟩, h3⟩ | ⟨v, r, ⟨⟨h1, h2⟩, h3⟩, -⟩
    · exact ⟨val, h1, h2, h3⟩
    · exact ⟨v, h1, h2, h3⟩
  obtain ⟨m1, m2, m3, m4⟩ := meets_key hp hq hty
    (fun b hb => by obtain ⟨n, hn, h⟩ := hbw b hb; exact ⟨n, hn.1, h⟩) hV hok hf hd
  have hhead : key.head? = some 0 ∨ key.head? = some 2 := by
    rcases m4 with ⟨buf, rfl⟩ | ⟨buf, rfl⟩
    · exact .inl rfl
    · exact .inr rfl
  obtain ⟨f, l, cnt, hu, hst⟩ : ∃ f l c, tripletUnpack val = .ok (f, l, c) ∧
      shownTimes e = some (f, if l = 0 then f else l) := by
    rcases m4 with ⟨buf, rfl⟩ | ⟨buf, rfl⟩
    · obtain ⟨own, bw, nt, t, rest, f, l, c, -, -, -, -, -, -, hu, h0, -, -, h1, h2⟩ := decode_rrset_shape rfl hd
      exact ⟨f, l, c, hu, by rw [(shown_of_rrset h0).2.1, h1, h2]⟩
    · obtain ⟨lo, hi, nt, t, f, l, c, -, -, -, -, hu, h0, -, h1, h2⟩ := decode_rdata_shape rfl hd
      exact ⟨f, l, c, hu, by rw [(shown_of_rdata h0).2, h1, h2]⟩
  have hz' : q.bounds.lastBefore = none ∨ l ≠ 0 ∨ ∃ x, q.bounds.lastAfter = some x ∧ 0 < x := by
    rcases hz with h | h | ⟨hR, hF⟩
    · exact .inl h
    · exact .inr (.inr h)
    · refine .inr (.inl ?_)
      rcases hj with ⟨⟨h1, -⟩, -⟩ | ⟨v, r, ⟨⟨h1, -⟩, -⟩, ⟨F, hfl, hr⟩, hcmp, hm⟩
      · obtain ⟨f', l', c', hf', hl', hc', hne, hval⟩ := hR _ h1 hhead
        simp only at hval
        rw [hval, tripletUnpack_pack hf' hl' hc'] at hu
        cases hu
        exact hne
      · obtain ⟨f0, l0, c0, hf0, hl0, hc0, hne0, hv0⟩ := hR _ h1 hhead
        simp only at hv0 hm hcmp
        have hk := bytesCompare_eq.mp hcmp
        obtain ⟨f1, l1, c1, hf1, hl1, hc1, hne1, hv1⟩ := hF F hfl r hr (by rw [hk]; exact hhead)
        rw [hv0, hv1, C04_merge_triplets key hhead f0 l0 c0 f1 l1 c1 ⟨hf0, hl0, hc0⟩ ⟨hf1, hl1, hc1⟩] at hm
        cases hm
        rw [tripletUnpack_pack (by omega) (by omega) (Nat.mod_lt _ (by decide))] at hu
        cases hu
        omega
  have hwb : WithinBounds q.bounds (f, if l = 0 then f else l) := by
    cases ha : q.bounds.any with
    | true => exact within_of_match hu (ht ha) hz'
    | false =>
      have : q.bounds.firstBefore = none ∧ q.bounds.firstAfter = none ∧ q.bounds.lastBefore = none ∧
          q.bounds.lastAfter = none := by
        unfold Bounds.any at ha
        rcases h1 : q.bounds.firstBefore with _ | _ <;> rcases h2 : q.bounds.firstAfter with _ | _ <;>
          rcases h3 : q.bounds.lastBefore with _ | _ <;> rcases h4 : q.bounds.lastAfter with _ | _ <;>
          simp [h1, h2, h3, h4] at ha ⊢
      obtain ⟨h1, h2, h3, h4⟩ := this
      exact ⟨fun x h => (by rw [h1] at h; cases h), fun x h => (by rw [h2] at h; cases h),
        fun x h => (by rw [h3] at h; cases h), fun x h => (by rw [h4] at h; cases h)⟩
  refine ⟨(queryFilter_true hlen).mpr ⟨m1, m2, fun _ => ⟨_, hst, hwb⟩, m3⟩, _, _, ?_, ?_, hwb⟩
  · rw [getTimeFirst_shown, hst]; rfl
  · rw [getTimeLast_shown, hst]; rfl

/-- C44, partial: every entry returned by a query for RRsets, names, addresses or raw data is accepted
by `dnstable_query_filter` with the same query: for every table (however malformed), every index,
removal sources and fill merger of a file set, and every sequence of calls with any time limits.
`C44_returned_counterexample` shows what is missing: a query with an upper bound on the last-seen time
(and none above 0 below it) can return rows stored without a last-seen time. -/
theorem C44_returned_partial (q : Query) (p : Plan) (hp : initKind q = .ok p)
    (hq : q.qType = .rrset ∨ q.qType = .rdataName ∨ q.qType = .rdataIp ∨ q.qType = .rdataRaw)
    (hty : q.doRrtype = true → q.rrtype < 65536)
    (hbw : ∀ b, q.bailiwick = some b → ∃ n, legalName n ∧ b = wire n)
    (R : Src) (index : Mach) (rm : Option (List Src)) (fill : Option Src)
    (hz : q.bounds.lastBefore = none ∨ (∃ x, q.bounds.lastAfter = some x ∧ 0 < x) ∨
      (LastSeen R.rows ∧ ∀ F, fill = some F → LastSeen F.rows))
    (ls : List Limits) (w : World) (c : Call)
    (hc : c ∈ queryRun q (assemble q ⟨R.mach, index, rm, fill⟩ p) ls
      (assemble q ⟨R.mach, index, rm, fill⟩ p).start w)
    (e : Entry) (he : c.res = .entry e) : queryFilter q e = .ok true :=
  (returned_accepted q p hp hq hty hbw R index rm fill hz ls w c hc e he).1

/-- C28, partial: every entry returned by such a query is accepted by `dnstable_query_filter`, and the
times its accessors show are within the bounds.  What is missing is the same as in
`C44_returned_partial`. -/
theorem C28_returned_partial (q : Query) (p : Plan) (hp : initKind q = .ok p)
    (hq : q.qType = .rrset ∨ q.qType = .rdataName ∨ q.qType = .rdataIp ∨ q.qType = .rdataRaw)
    (hty : q.doRrtype = true → q.rrtype < 65536)
    (hbw : ∀ b, q.bailiwick = some b → ∃ n, legalName n ∧ b = wire n)
    (R : Src) (index : Mach) (rm : Option (List Src)) (fill : Option Src)
    (hz : q.bounds.lastBefore = none ∨ (∃ x, q.bounds.lastAfter = some x ∧ 0 < x) ∨
      (LastSeen R.rows ∧ ∀ F, fill = some F → LastSeen F.rows))
    (ls : List Limits) (w : World) (c : Call)
    (hc : c ∈ queryRun q (assemble q ⟨R.mach, index, rm, fill⟩ p) ls
      (assemble q ⟨R.mach, index, rm, fill⟩ p).start w)
    (e : Entry) (he : c.res = .entry e) :
    queryFilter q e = .ok true ∧
      ∃ first last, e.getTimeFirst = .ok first ∧ e.getTimeLast = .ok last ∧
        (∀ x, q.bounds.firstBefore = some x → first ≤ x) ∧ (∀ x, q.bounds.firstAfter = some x → x ≤ first) ∧
        (∀ x, q.bounds.lastBefore = some x → last ≤ x) ∧ (∀ x, q.bounds.lastAfter = some x → x ≤ last) := by
  obtain ⟨h1, f, l, h2, h3, h4⟩ := returned_accepted q p hp hq hty hbw R index rm fill hz ls w c hc e he
  exact ⟨h1, f, l, h2, h3, h4.firstBefore, h4.firstAfter, h4.lastBefore, h4.lastAfter⟩

/-- The plans of the queries for `a.com` in the examples. -/
theorem exACom_plan (q : Query) (ht : q.qType = .rrset) (hn : q.name = [1, 97, 3, 99, 111, 109, 0])
    (hr : q.rrtype = 1) (hb : q.bailiwick = none) :
    initKind q = .ok { view := .pfx ([0, 3, 99, 111, 109, 1, 97, 0] ++ if q.doRrtype then [1] else []) } := by
  have h : reverseName [1, 97, 3, 99, 111, 109, 0] = .ok [3, 99, 111, 109, 1, 97, 0] := by decide +kernel
  have h1 : initKind q = initRrsetExact q := by
    unfold initKind initRrset
    rw [ht, hn]
    rfl
  rw [h1]
  unfold initRrsetExact
  rw [hn, h, hb, hr]
  simp only [Out.ok_bind]
  rw [if_neg (by decide)]
  cases hd : q.doRrtype
  · simp [bailiwickIf, hb]
  · have : addRrtype [0, 3, 99, 111, 109, 1, 97, 0] 1 = .ok [0, 3, 99, 111, 109, 1, 97, 0, 1] := by decide +kernel
    simp [this]

/-- `a.com` queried with an upper bound on the last-seen time, over a row seen from 5 to 6, filled up
from another file to 5 to 7. -/
example :
    let q : Query := { qType := .rrset, name := [1, 97, 3, 99, 111, 109, 0], doRrtype := true, rrtype := 1,
                       bounds := { lastBefore := some 8 } }
    let F : Src := ⟨exRows, fun _ _ => false⟩
    let G : Src := ⟨[([0, 3, 99, 111, 109, 1, 97, 0, 1, 3, 99, 111, 109, 0, 4, 1, 2, 3, 4], [6, 7, 1])], fun _ _ => false⟩
    let p : Plan := { view := .pfx [0, 3, 99, 111, 109, 1, 97, 0, 1] }
    let B := assemble q ⟨F.mach, F.mach, some [], some G⟩ p
    initKind q = .ok p ∧
    (queryRun q B [{}, {}] B.start (exWorld 0)).map
      (fun c => match c.res with | .entry e => some (e.timeFirst, e.timeLast, e.count) | _ => none)
      = [some (5, 7, 8), none] := by
  exact ⟨exACom_plan _ rfl rfl rfl rfl, by decide +kernel⟩

/-- The `LastSeen` hypothesis holds of the rows of this example. -/
example : LastSeen exRows := by
  intro kv hkv hk
  simp only [exRows, List.mem_cons, List.not_mem_nil, or_false] at hkv
  rcases hkv with rfl | rfl | rfl | rfl | rfl
  · exact ⟨5, 6, 7, by decide, by decide, by decide, by decide, by decide +kernel⟩
  · exact ⟨5, 6, 7, by decide, by decide, by decide, by decide, by decide +kernel⟩
  · exact ⟨8, 9, 1, by decide, by decide, by decide, by decide, by decide +kernel⟩
  · rcases hk with hk | hk <;> cases hk
  · rcases hk with hk | hk <;> cases hk

/-- A row stored with first-seen time 9 and last-seen time 0 passes a query's upper bound 5 on the
last-seen time, but the entry then shows the last-seen time 9, and `dnstable_query_filter` with the
same query rejects it. -/
theorem C28_zero_last_counterexample :
    let q : Query := { qType := .rrset, name := [1, 97, 3, 99, 111, 109, 0], rrtype := 1, bounds := { lastBefore := some 5 } }
    let T : Table := [([0, 3, 99, 111, 109, 1, 97, 0, 1, 3, 99, 111, 109, 0, 4, 1, 2, 3, 4], tripletPack 9 0 1)]
    let p : Plan := { view := .pfx [0, 3, 99, 111, 109, 1, 97, 0] }
    let B := assemble q (plainSources (curM T fun _ _ => false)) p
    initKind q = .ok p ∧
    (queryRun q B [{}] B.start (exWorld 0)).map
      (fun c => match c.res with
        | .entry e => some (e.getTimeLast, queryFilter q e)
        | _ => none) = [some (.ok 9, .ok false)] := by
  exact ⟨exACom_plan _ rfl rfl rfl rfl, by decide +kernel⟩

/-- The same for C44: an entry returned by a query is not accepted by it. -/
theorem C44_returned_counterexample :
    ∃ (q : Query) (p : Plan) (T : Table) (c : Call) (e : Entry), initKind q = .ok p ∧
      (let B := assemble q (plainSources (curM T fun _ _ => false)) p
       c ∈ queryRun q B [{}] B.start (exWorld 0)) ∧ c.res = .entry e ∧ queryFilter q e = .ok false := by
  let q : Query := { qType := .rrset, name := [1, 97, 3, 99, 111, 109, 0], rrtype := 1, bounds := { lastBefore := some 5 } }
  let T : Table := [([0, 3, 99, 111, 109, 1, 97, 0, 1, 3, 99, 111, 109, 0, 4, 1, 2, 3, 4], tripletPack 9 0 1)]
  let p : Plan := { view := .pfx [0, 3, 99, 111, 109, 1, 97, 0] }
  let B := assemble q (plainSources (curM T fun _ _ => false)) p
  let r := queryNext q B B.start (exWorld 0)
  let e : Entry := { eType := 0, name := [1, 97, 3, 99, 111, 109, 0], bailiwick := [3, 99, 111, 109, 0],
                     rrtype := 1, rdatas := [[1, 2, 3, 4]], timeFirst := 9, timeLast := 9, count := 1 }
  exact ⟨q, p, T, ⟨{}, exWorld 0, r.2.2, r.1⟩, e, exACom_plan q rfl rfl rfl rfl, List.mem_cons_self, by decide +kernel, by decide +kernel⟩

end Verif.Props
