import Verif.Spec.Params
import Verif.Props.Addr

/-! # C43: query parameter setters -/

namespace Verif.Props
open Verif Verif.Spec

private theorem bind_ok {α β : Type} {x : Out α} {f : α → Out β} {b : β} (h : (x >>= f) = .ok b) :
    ∃ a, x = .ok a ∧ f a = .ok b := by
  cases x with
  | ok a => exact ⟨a, rfl, h⟩
  | fail => cases h
  | fault e => cases h

private theorem prefix_shape {A : Arith} {L : Libs} {q : Query} {s : Bytes} {r : Query × Bool}
    (h : setDataPrefix A L q s = .ok r) : r = (q, false) ∨
    ∃ lo hi rr, r = ({ q with doRrtype := true, rrtype := rr, ip1 := lo, ip2 := hi }, true) := by
  unfold setDataPrefix at h
  split at h
  · split at h
    · cases h; exact .inl rfl
    · split at h
      · cases h; exact .inl rfl
      · generalize (2 : Int) ^ 32 = P at h
        split at h
        · cases h; exact .inl rfl
        · split at h
          · obtain ⟨lo, -, h⟩ := bind_ok h
            obtain ⟨hi, -, h⟩ := bind_ok h
            cases h; exact .inr ⟨lo, hi, _, rfl⟩
          · split at h
            · obtain ⟨lo, -, h⟩ := bind_ok h
              obtain ⟨hi, -, h⟩ := bind_ok h
              cases h; exact .inr ⟨lo, hi, _, rfl⟩
            · cases h; exact .inl rfl
  · cases h; exact .inl rfl

/-- What setting the search data can change. -/
private theorem data_shape {A : Arith} {L : Libs} {q : Query} {s : Option Bytes} {r : Query × Bool}
    (h : setData A L q s = .ok r) : ∃ nm i1 i2 rd ln hv vt dr rr,
      r.1 = { q with name := nm, ip1 := i1, ip2 := i2, rdata := rd, lenRdata := ln, hasVType := hv, vType := vt,
                     doRrtype := dr, rrtype := rr } ∧
      (q.qType ≠ .rdataIp → dr = q.doRrtype ∧ rr = q.rrtype) := by
  unfold setData at h
  split at h
  · cases h; exact ⟨_, _, _, _, _, _, _, _, _, rfl, fun _ => ⟨rfl, rfl⟩⟩
  · cases h; exact ⟨_, _, _, _, _, _, _, _, _, rfl, fun _ => ⟨rfl, rfl⟩⟩
  · next hq =>
    suffices hs : ∃ i1 i2 dr rr, r.1 = { q with ip1 := i1, ip2 := i2, doRrtype := dr, rrtype := rr } by
      obtain ⟨i1, i2, dr, rr, e⟩ := hs
      exact ⟨_, _, _, _, _, _, _, _, _, e, fun h => absurd hq h⟩
    unfold setDataIp at h
    split at h
    · cases h; exact ⟨_, _, _, _, rfl⟩
    · split at h
      · cases h
        unfold setDataRange
        split
        · split
          · exact ⟨_, _, _, _, rfl⟩
          · simp only
            split
            · exact ⟨_, _, _, _, rfl⟩
            · split
              · exact ⟨_, _, _, _, rfl⟩
              · exact ⟨_, _, _, _, rfl⟩
        · exact ⟨_, _, _, _, rfl⟩
      · split at h
        · rcases prefix_shape h with rfl | ⟨lo, hi, rr, rfl⟩
          · exact ⟨_, _, _, _, rfl⟩
          · exact ⟨_, _, _, _, rfl⟩
        · cases h
          unfold setDataAddress
          simp only
          split
          · exact ⟨_, _, _, _, rfl⟩
          · exact ⟨_, _, _, _, rfl⟩
  · cases h
    unfold setDataRaw
    simp only
    split
    · exact ⟨_, _, _, _, _, _, _, _, _, rfl, fun _ => ⟨rfl, rfl⟩⟩
    · split
      · exact ⟨_, _, _, _, _, _, _, _, _, rfl, fun _ => ⟨rfl, rfl⟩⟩
      · split
        · exact ⟨_, _, _, _, _, _, _, _, _, rfl, fun _ => ⟨rfl, rfl⟩⟩
        · exact ⟨_, _, _, _, _, _, _, _, _, rfl, fun _ => ⟨rfl, rfl⟩⟩
  · cases h
    unfold setVersionType
    split
    · exact ⟨_, _, _, _, _, _, _, _, _, rfl, fun _ => ⟨rfl, rfl⟩⟩
    · split
      · split
        · exact ⟨_, _, _, _, _, _, _, _, _, rfl, fun _ => ⟨rfl, rfl⟩⟩
        · exact ⟨_, _, _, _, _, _, _, _, _, rfl, fun _ => ⟨rfl, rfl⟩⟩
      · exact ⟨_, _, _, _, _, _, _, _, _, rfl, fun _ => ⟨rfl, rfl⟩⟩
  · cases h; exact ⟨_, _, _, _, _, _, _, _, _, rfl, fun _ => ⟨rfl, rfl⟩⟩

private theorem bailiwick_shape (L : Libs) (q : Query) (s : Option Bytes) :
    ∃ b, (setBailiwick L q s).1 = { q with bailiwick := b } := by
  unfold setBailiwick
  split
  · exact ⟨_, rfl⟩
  · split
    · exact ⟨_, rfl⟩
    · exact ⟨_, rfl⟩
    · split
      · exact ⟨_, rfl⟩
      · exact ⟨_, rfl⟩

private theorem rrtype_shape (L : Libs) (q : Query) (s : Option Bytes) :
    ∃ d t, (setRrtype L q s).1 = { q with doRrtype := d, rrtype := t } := by
  unfold setRrtype
  split
  · exact ⟨_, _, rfl⟩
  · split
    · exact ⟨_, _, rfl⟩
    · simp only
      split
      · exact ⟨_, _, rfl⟩
      · exact ⟨_, _, rfl⟩

/-- C43: a setter call never changes the kind of query nor any parameter but its own; the one exception is that an
address sets the record type of an address query. -/
theorem C43_frame (A : Arith) (L : Libs) (q : Query) (s : Setter) (r : Query × Bool)
    (h : applySetter A L q s = .ok r) :
    r.1.qType = q.qType ∧
    ∀ p, paramOf s ≠ some p → (q.qType = .rdataIp → paramOf s = some .data → p ≠ .rrtype) →
      view p r.1 = view p q := by
  cases s with
  | caseSensitive b => cases h; refine ⟨rfl, fun p hp _ => ?_⟩; cases p <;> first | rfl | exact absurd rfl hp
  | bailiwick s =>
    cases h
    obtain ⟨b, e⟩ := bailiwick_shape L q s
    rw [e]
    refine ⟨rfl, fun p hp _ => ?_⟩; cases p <;> first | rfl | exact absurd rfl hp
  | data s =>
    obtain ⟨nm, i1, i2, rd, ln, hv, vt, dr, rr, e, hr⟩ := data_shape h
    rw [e]
    refine ⟨rfl, fun p hp hi => ?_⟩
    cases p <;> first | rfl | exact absurd rfl hp | skip
    have hq : q.qType ≠ .rdataIp := fun hq => hi hq rfl rfl
    obtain ⟨rfl, rfl⟩ := hr hq
    rfl
  | rrtype s =>
    cases h
    obtain ⟨d, t, e⟩ := rrtype_shape L q s
    rw [e]
    refine ⟨rfl, fun p hp _ => ?_⟩; cases p <;> first | rfl | exact absurd rfl hp
  | offset n => cases h; refine ⟨rfl, fun p hp _ => ?_⟩; cases p <;> first | rfl | exact absurd rfl hp
  | aggregated b => cases h; refine ⟨rfl, fun p hp _ => ?_⟩; cases p <;> first | rfl | exact absurd rfl hp
  | timeout t =>
    cases h
    cases t <;> (refine ⟨rfl, fun p hp _ => ?_⟩; cases p <;> first | rfl | exact absurd rfl hp)
  | deadline t =>
    cases h
    cases t <;> (refine ⟨rfl, fun p hp _ => ?_⟩; cases p <;> first | rfl | exact absurd rfl hp)
  | filterParam k v n =>
    cases h
    unfold setFilterParameter
    split
    · exact ⟨rfl, fun _ _ _ => rfl⟩
    · split
      · next e => subst e; refine ⟨rfl, fun p hp _ => ?_⟩; cases p <;> first | rfl | exact absurd rfl hp
      · split
        · next e => subst e; refine ⟨rfl, fun p hp _ => ?_⟩; cases p <;> first | rfl | exact absurd rfl hp
        · split
          · next e => subst e; refine ⟨rfl, fun p hp _ => ?_⟩; cases p <;> first | rfl | exact absurd rfl hp
          · split
            · next e => subst e; refine ⟨rfl, fun p hp _ => ?_⟩; cases p <;> first | rfl | exact absurd rfl hp
            · exact ⟨rfl, fun _ _ _ => rfl⟩

/-- The address `10.1.2.3` sets the record type to A and nothing else but itself. -/
example : applySetter strictArith exLibs { qType := .rdataIp, offset := 3 } (.data (some (lit "10.1.2.3")))
    = .ok ({ qType := .rdataIp, offset := 3, ip1 := [10, 1, 2, 3], doRrtype := true, rrtype := 1 }, true) := by
  decide +kernel

/-! ## Sequences of calls -/

private theorem apply_ok (A : Arith) (L : Libs) {q : Query} (hq : q.qType ≠ .rdataIp) (s : Setter) :
    ∃ r, applySetter A L q s = .ok r := by
  cases s with
  | data s =>
    simp only [applySetter, setData]
    split <;> first | exact ⟨_, rfl⟩ | (next h => exact absurd h hq)
  | _ => exact ⟨_, rfl⟩

/-- A call does the same to its parameter in queries that agree in it. -/
private theorem own_congr {A : Arith} {L : Libs} {q q' : Query} (hq : q.qType ≠ .rdataIp) (ht : q.qType = q'.qType)
    {s : Setter} {p : Param} (hp : paramOf s = some p) (hv : view p q = view p q')
    (hc : p = .data → q.caseSensitive = q'.caseSensitive) {r r' : Query × Bool}
    (h : applySetter A L q s = .ok r) (h' : applySetter A L q' s = .ok r') : view p r.1 = view p r'.1 := by
  rcases q with ⟨t, dr, rr, lim, ag, cs, bo, nm, bw, i1, i2, rd, ln, off, hvt, vt⟩
  rcases q' with ⟨t', dr', rr', lim', ag', cs', bo', nm', bw', i1', i2', rd', ln', off', hvt', vt'⟩
  cases ht
  cases s with
  | caseSensitive b => cases h; cases h'; cases hp; rfl
  | bailiwick s =>
    cases h; cases h'; cases hp
    simp only [view, Query.mk.injEq, and_true, true_and] at hv
    subst hv
    simp only [setBailiwick]
    split
    · rfl
    · split
      · rfl
      · rfl
      · split <;> rfl
  | data s =>
    cases hp
    have hc := hc rfl
    simp only at hc hq
    subst hc
    simp only [view, Query.mk.injEq, true_and] at hv
    obtain ⟨rfl, rfl, rfl, rfl, rfl, rfl, hv⟩ := hv
    cases t with
    | rrset => cases h; cases h'; cases hvt <;> first | rfl | (simp at hv; subst hv; rfl)
    | rdataName => cases h; cases h'; cases hvt <;> first | rfl | (simp at hv; subst hv; rfl)
    | rdataIp => exact absurd rfl hq
    | rdataRaw =>
      cases h; cases h'
      simp only [setDataRaw]
      split
      · simp only [view, hv]
      · split
        · simp only [view, hv]
        · split
          · simp only [view, hv]
          · simp only [view, hv]
    | timeRange => cases h; cases h'; simp only [view, hv]
    | sourceInfo => cases h; cases h'; simp only [view, hv]
    | version =>
      cases h; cases h'
      simp only [setVersionType]
      split
      · simp only [view, hv]
      · split
        · split
          · rfl
          · simp only [view, hv]
        · simp only [view, hv]
  | rrtype s =>
    cases h; cases h'; cases hp
    simp only [view, Query.mk.injEq, and_true, true_and] at hv
    simp only [setRrtype]
    split
    · rfl
    · split
      · rfl
      · split
        · simp only [view, Query.mk.injEq, and_true, true_and]; exact hv
        · rfl
  | offset n => cases h; cases h'; cases hp; rfl
  | aggregated b => cases h; cases h'; cases hp; rfl
  | timeout u => cases h; cases h'; cases hp; cases u <;> rfl
  | deadline u => cases h; cases h'; cases hp; cases u <;> rfl
  | filterParam k v n =>
    cases h; cases h'
    simp only [setFilterParameter]
    split
    · exact hv
    · split
      · next e => subst e; cases hp; rfl
      · split
        · next e => subst e; cases hp; rfl
        · split
          · next e => subst e; cases hp; rfl
          · split
            · next e => subst e; cases hp; rfl
            · exact hv

/-- Whether a call succeeds depends on the kind of query only. -/
private theorem success_congr {A : Arith} {L : Libs} {q q' : Query} (hq : q.qType ≠ .rdataIp) (ht : q.qType = q'.qType)
    {s : Setter} {r r' : Query × Bool}
    (h : applySetter A L q s = .ok r) (h' : applySetter A L q' s = .ok r') : r.2 = r'.2 := by
  rcases q with ⟨t, dr, rr, lim, ag, cs, bo, nm, bw, i1, i2, rd, ln, off, hvt, vt⟩
  rcases q' with ⟨t', dr', rr', lim', ag', cs', bo', nm', bw', i1', i2', rd', ln', off', hvt', vt'⟩
  cases ht
  cases s with
  | bailiwick s =>
    cases h; cases h'
    simp only [setBailiwick]
    split
    · rfl
    · split
      · rfl
      · rfl
      · split <;> rfl
  | data s =>
    simp only at hq
    cases t with
    | rrset =>
      cases h; cases h'; simp only [setDataName, loadName]
      split
      · rfl
      · split <;> rfl
    | rdataName =>
      cases h; cases h'; simp only [setDataName, loadName]
      split
      · rfl
      · split <;> rfl
    | rdataIp => exact absurd rfl hq
    | rdataRaw =>
      cases h; cases h'
      simp only [setDataRaw]
      split
      · rfl
      · split
        · rfl
        · split <;> rfl
    | timeRange => cases h; cases h'; rfl
    | sourceInfo => cases h; cases h'; rfl
    | version =>
      cases h; cases h'
      simp only [setVersionType]
      split
      · rfl
      · split
        · split <;> rfl
        · rfl
  | rrtype s =>
    cases h; cases h'
    simp only [setRrtype]
    split
    · rfl
    · split
      · rfl
      · split <;> rfl
  | caseSensitive b => cases h; cases h'; rfl
  | offset n => cases h; cases h'; rfl
  | aggregated b => cases h; cases h'; rfl
  | timeout u => cases h; cases h'; cases u <;> rfl
  | deadline u => cases h; cases h'; cases u <;> rfl
  | filterParam k v n =>
    cases h; cases h'
    simp only [setFilterParameter]
    repeat' split
    all_goals rfl

/-- A sequence and its part concerning a set of parameters agree in these parameters. -/
private theorem run_filter {A : Arith} {L : Libs} (S : Param → Bool) (hS : S .data = true → S .caseSensitive = true) :
    ∀ (ss : List Setter) (q q' : Query), q.qType ≠ .rdataIp → q.qType = q'.qType →
      (∀ p, S p = true → view p q = view p q') →
      ∃ r r', applySetters A L q ss = .ok r ∧
        applySetters A L q' (ss.filter fun s => (paramOf s).any S) = .ok r' ∧
        r.1.qType = q.qType ∧ ∀ p, S p = true → view p r.1 = view p r'.1
  | [], q, q', _, _, hv => ⟨_, _, rfl, rfl, rfl, hv⟩
  | s :: ss, q, q', hq, ht, hv => by
    obtain ⟨r, hr⟩ := apply_ok A L hq s
    obtain ⟨hr1, hr2⟩ := C43_frame A L q s r hr
    have hr2 : ∀ p, paramOf s ≠ some p → view p r.1 = view p q := fun p hp => hr2 p hp fun h => absurd h hq
    by_cases hs : (paramOf s).any S = true
    · obtain ⟨r', hr'⟩ := apply_ok A L (q := q') (ht ▸ hq) s
      obtain ⟨hr1', hr2'⟩ := C43_frame A L q' s r' hr'
      have hr2' : ∀ p, paramOf s ≠ some p → view p r'.1 = view p q' := fun p hp => hr2' p hp fun h => absurd h (ht ▸ hq)
      obtain ⟨x, x', h1, h2, h3, h4⟩ := run_filter (A := A) (L := L) S hS ss r.1 r'.1 (hr1 ▸ hq) (by rw [hr1, hr1', ht]) (by
        intro p hp
        by_cases e : paramOf s = some p
        · refine own_congr hq ht e (hv p hp) (fun hd => ?_) hr hr'
          subst hd
          have := hv .caseSensitive (hS hp)
          simp only [view, Query.mk.injEq, and_true, true_and] at this
          exact this.2
        · rw [hr2 p e, hr2' p e, hv p hp])
      refine ⟨(x.1, r.2 :: x.2), (x'.1, r'.2 :: x'.2), ?_, ?_, h3.trans hr1, h4⟩
      · simp only [applySetters, hr, Out.ok_bind, h1]
      · rw [List.filter_cons, if_pos hs]
        simp only [applySetters, hr', Out.ok_bind, h2]
    · obtain ⟨x, x', h1, h2, h3, h4⟩ := run_filter (A := A) (L := L) S hS ss r.1 q' (hr1 ▸ hq) (by rw [hr1, ht]) (by
        intro p hp
        rw [hr2 p, hv p hp]
        intro e
        rw [e] at hs
        exact hs hp)
      refine ⟨(x.1, r.2 :: x.2), x', ?_, ?_, h3.trans hr1, h4⟩
      · simp only [applySetters, hr, Out.ok_bind, h1]
      · rw [List.filter_cons, if_neg hs]
        exact h2

/-- C43 (partial: address queries are excepted, there setting the address also sets the record type, see
`C43_order_counterexample`): after any sequence of calls, each parameter is what the calls bearing on it have made it,
wherever in between other parameters were set. -/
theorem C43_history_partial (A : Arith) (L : Libs) (q : Query) (hq : q.qType ≠ .rdataIp) (ss : List Setter) (p : Param) :
    ∃ r r', applySetters A L q ss = .ok r ∧ applySetters A L q (ss.filter (bearsOn p)) = .ok r' ∧
      view p r.1 = view p r'.1 := by
  obtain ⟨r, r', h1, h2, -, h4⟩ := run_filter (A := A) (L := L)
    (fun x => x == p || (p == .data && x == .caseSensitive)) (by cases p <;> simp) ss q q hq rfl (fun _ _ => rfl)
  refine ⟨r, r', h1, ?_, h4 p (by simp)⟩
  have e : ss.filter (bearsOn p) = ss.filter fun s => (paramOf s).any fun x => x == p || (p == .data && x == .caseSensitive) := by
    congr 1
    funext s
    unfold bearsOn
    cases paramOf s with
    | none => simp
    | some x => simp
  rw [e]
  exact h2

example : applySetters strictArith exLibs { qType := .rrset }
      [.rrtype (some (lit "MX")), .data (some (lit "B.")), .offset 3, .caseSensitive true, .rrtype none]
    = .ok ({ qType := .rrset, name := [1, 98, 0], rrtype := 15, offset := 3, caseSensitive := true },
        [true, true, true, true, true]) := by decide +kernel

/-- C43 (partial, likewise): the order in which different parameters are set does not matter. -/
theorem C43_order_partial (A : Arith) (L : Libs) (q : Query) (hq : q.qType ≠ .rdataIp) (ss ss' : List Setter)
    (h : ∀ p, ss.filter (bearsOn p) = ss'.filter (bearsOn p)) :
    ∃ r r', applySetters A L q ss = .ok r ∧ applySetters A L q ss' = .ok r' ∧ ∀ p, view p r.1 = view p r'.1 := by
  obtain ⟨r, _, h1, -, -⟩ := C43_history_partial A L q hq ss .data
  obtain ⟨r', _, h2, -, -⟩ := C43_history_partial A L q hq ss' .data
  refine ⟨r, r', h1, h2, fun p => ?_⟩
  obtain ⟨x, x', a1, a2, a3⟩ := C43_history_partial A L q hq ss p
  obtain ⟨y, y', b1, b2, b3⟩ := C43_history_partial A L q hq ss' p
  rw [h1] at a1; rw [h2] at b1; rw [h p, b2] at a2
  cases a1; cases b1; cases a2
  rw [a3, b3]

/-- Setting type and data in either order. -/
example : ∀ p ∈ [Param.data, .rrtype, .offset, .caseSensitive],
    [Setter.rrtype (some (lit "MX")), .data (some (lit "B."))].filter (bearsOn p)
      = [Setter.data (some (lit "B.")), .rrtype (some (lit "MX"))].filter (bearsOn p) := by decide +kernel

/-- C43: a failed call about any parameter but the search data and the bailiwick changes nothing. -/
theorem C43_failure_partial (A : Arith) (L : Libs) (q q' : Query) (s : Setter) (p : Param) (hp : paramOf s = some p)
    (hs : steady p = true) (h : applySetter A L q s = .ok (q', false)) : q' = q := by
  cases s with
  | bailiwick s => cases hp; cases hs
  | data s => cases hp; cases hs
  | caseSensitive b => cases h
  | offset b => cases h
  | aggregated b => cases h
  | timeout t => cases t <;> cases h
  | deadline t => cases t <;> cases h
  | rrtype s =>
    have h : setRrtype L q s = (q', false) := by simpa [applySetter] using h
    unfold setRrtype at h
    split at h
    · cases h
    · split at h
      · cases h
      · simp only at h
        split at h
        · cases h; rfl
        · cases h
  | filterParam k v n =>
    have h : setFilterParameter q k v n = (q', false) := by simpa [applySetter] using h
    unfold setFilterParameter at h
    split at h
    · cases h; rfl
    · split at h
      · cases h
      · split at h
        · cases h
        · split at h
          · cases h
          · split at h
            · cases h
            · cases h; rfl

example : applySetter strictArith exLibs { qType := .rrset, rrtype := 15, doRrtype := true } (.rrtype (some (lit "NOPE")))
    = .ok ({ qType := .rrset, rrtype := 15, doRrtype := true }, false) := by decide +kernel

/-- C43 (partial, for the same parameters): the last successful call about a parameter decides, whatever was set
before and whatever failed afterwards. -/
theorem C43_last_partial (A : Arith) (L : Libs) (q : Query) (hq : q.qType ≠ .rdataIp) (pre post : List Setter)
    (s : Setter) (p : Param) (hp : paramOf s = some p) (hs : steady p = true) (d : Query)
    (h : applySetter A L { qType := q.qType } s = .ok (d, true))
    (hpost : ∀ t ∈ post, paramOf t = some p → ∃ d', applySetter A L { qType := q.qType } t = .ok (d', false)) :
    ∃ r, applySetters A L q (pre ++ s :: post) = .ok r ∧ view p r.1 = view p d := by
  have app : ∀ (a b : List Setter) (q : Query) x, applySetters A L q a = .ok x →
      ∀ y, applySetters A L x.1 b = .ok y → applySetters A L q (a ++ b) = .ok (y.1, x.2 ++ y.2) := by
    intro a
    induction a with
    | nil => intro b q x hx y hy; cases hx; simpa using hy
    | cons c a ih =>
      intro b q x hx y hy
      simp only [applySetters] at hx
      obtain ⟨u, hu, hx⟩ := bind_ok hx
      obtain ⟨v, hv, hx⟩ := bind_ok hx
      cases hx
      simp only [List.cons_append, applySetters, hu, Out.ok_bind, ih b u.1 v hv y hy]
  have hc : p ≠ .data := by rintro rfl; cases hs
  obtain ⟨x, -, hx, -, ht, -⟩ := run_filter (A := A) (L := L) (fun _ => true) (fun _ => rfl) pre q q hq rfl (fun _ _ => rfl)
  obtain ⟨r, hr⟩ := apply_ok A L (q := x.1) (ht ▸ hq) s
  have hr1 := (C43_frame A L x.1 s r hr).1
  have key : view p r.1 = view p d := by
    have hne : x.1.qType ≠ .rdataIp := ht ▸ hq
    generalize hX : x.1 = X at *
    cases s with
    | bailiwick s => cases hp; cases hs
    | data s => exact absurd (Option.some.inj hp).symm hc
    | caseSensitive b => cases h; cases hr; cases hp; simp [view, ht]
    | offset b => cases h; cases hr; cases hp; simp [view, ht]
    | aggregated b => cases h; cases hr; cases hp; simp [view, ht]
    | timeout t => cases t <;> (cases h; cases hr; cases hp; simp [view, setTimeout, ht])
    | deadline t => cases t <;> (cases h; cases hr; cases hp; simp [view, setDeadlineParam, ht])
    | rrtype s =>
      cases hp
      have h : setRrtype L { qType := q.qType } s = (d, true) := by simpa [applySetter] using h
      cases hr
      unfold setRrtype at h ⊢
      split at h
      · cases h; simp [view, ht]
      · split at h
        · next hn => cases h; simp [view, ht, hn]
        · next hn =>
          simp only at h
          split at h
          · cases h
          · next hz => cases h; simp [view, ht, hn, hz]
    | filterParam k v n =>
      have h : setFilterParameter { qType := q.qType } k v n = (d, true) := by simpa [applySetter] using h
      cases hr
      unfold setFilterParameter at h ⊢
      split at h
      · cases h
      · next hn =>
        split at h
        · next e => obtain ⟨rfl, -⟩ := Prod.mk.inj h; subst e; cases hp; simp [view, ht, hn]
        · split at h
          · next e => obtain ⟨rfl, -⟩ := Prod.mk.inj h; subst e; cases hp; simp [view, ht, hn]
          · split at h
            · next e => obtain ⟨rfl, -⟩ := Prod.mk.inj h; subst e; cases hp; simp [view, ht, hn]
            · split at h
              · next e => obtain ⟨rfl, -⟩ := Prod.mk.inj h; subst e; cases hp; simp [view, ht, hn]
              · cases h
  -- the calls after it leave the parameter alone
  have tail : ∀ (post : List Setter) (q1 : Query), q1.qType = q.qType →
      (∀ t ∈ post, paramOf t = some p → ∃ d', applySetter A L { qType := q.qType } t = .ok (d', false)) →
      ∃ y, applySetters A L q1 post = .ok y ∧ view p y.1 = view p q1 := by
    intro post
    induction post with
    | nil => intro q1 _ _; exact ⟨_, rfl, rfl⟩
    | cons t post ih =>
      intro q1 hq1 hf
      obtain ⟨u, hu⟩ := apply_ok A L (q := q1) (hq1 ▸ hq) t
      obtain ⟨hu1, hu2⟩ := C43_frame A L q1 t u hu
      obtain ⟨y, hy1, hy2⟩ := ih u.1 (hu1.trans hq1) fun t' ht' => hf t' (List.mem_cons_of_mem _ ht')
      refine ⟨(y.1, u.2 :: y.2), by simp only [applySetters, hu, Out.ok_bind, hy1], ?_⟩
      rw [hy2]
      by_cases e : paramOf t = some p
      · obtain ⟨d', hd'⟩ := hf t (List.mem_cons_self ..) e
        have := success_congr (q := q1) (q' := { qType := q.qType }) (hq1 ▸ hq) hq1 hu hd'
        obtain ⟨u1, u2⟩ := u
        simp only at this
        subst this
        rw [C43_failure_partial A L q1 u1 t p e hs hu]
      · exact hu2 p e fun hh => absurd hh (hq1 ▸ hq)
  obtain ⟨y, hy1, hy2⟩ := tail post r.1 (hr1.trans ht) hpost
  refine ⟨(y.1, x.2 ++ (r.2 :: y.2)), app pre (s :: post) q x hx (y.1, r.2 :: y.2) ?_, hy2.trans key⟩
  simp only [applySetters, hr, Out.ok_bind, hy1]

example : applySetter strictArith exLibs { qType := .rdataName } (.rrtype (some (lit "MX")))
    = .ok ({ qType := .rdataName, rrtype := 15, doRrtype := true }, true) := by decide +kernel

/-- C43 (partial: raw data, the version type and the record type of address queries are excepted, see
`C43_clear_counterexample`): after clearing a parameter it is as in a new query. -/
theorem C43_clear_partial (A : Arith) (L : Libs) (q q' : Query) (s : Setter) (p : Param) (hp : paramOf s = some p)
    (hc : clears s = true) (h : applySetter A L q s = .ok (q', true))
    (hd : p = .data → (q.qType = .rrset ∨ q.qType = .rdataName) ∧ q.ip1 = [] ∧ q.ip2 = [] ∧ q.rdata = none ∧
      q.lenRdata = 0 ∧ q.hasVType = false) :
    view p q' = view p { qType := q.qType } := by
  cases s with
  | caseSensitive b => cases hc
  | offset b => cases hc
  | aggregated b => cases hc
  | bailiwick s =>
    cases s with
    | some s => cases hc
    | none =>
      cases hp
      have h : setBailiwick L q none = (q', true) := by simpa [applySetter] using h
      unfold setBailiwick at h
      split at h
      · cases h
      · cases h; rfl
  | data s =>
    cases s with
    | some s => cases hc
    | none =>
      cases hp
      obtain ⟨ht, h1, h2, h3, h4, h5⟩ := hd rfl
      have h : applySetter A L q (.data none) = .ok (setDataName L q none) := by
        rcases ht with ht | ht <;> simp [applySetter, setData, ht]
      rename_i h'
      rw [h] at h'
      cases h'
      simp [view, loadName, h1, h2, h3, h4, h5]
  | rrtype s =>
    cases s with
    | some s => cases hc
    | none => cases hp; cases h; rfl
  | timeout t =>
    cases t with
    | some s => cases hc
    | none => cases hp; cases h; rfl
  | deadline t =>
    cases t with
    | some s => cases hc
    | none => cases hp; cases h; rfl
  | filterParam k v n =>
    cases v with
    | some s => cases hc
    | none =>
      have h : setFilterParameter q k none n = (q', true) := by simpa [applySetter] using h
      unfold setFilterParameter at h
      split at h
      · cases h
      · split at h
        · next e => obtain ⟨rfl, -⟩ := Prod.mk.inj h; subst e; cases hp; rfl
        · split at h
          · next e => obtain ⟨rfl, -⟩ := Prod.mk.inj h; subst e; cases hp; rfl
          · split at h
            · next e => obtain ⟨rfl, -⟩ := Prod.mk.inj h; subst e; cases hp; rfl
            · split at h
              · next e => obtain ⟨rfl, -⟩ := Prod.mk.inj h; subst e; cases hp; rfl
              · cases h

example : applySetter strictArith exLibs { qType := .rrset, bounds := { firstAfter := some 7, lastAfter := some 8 } }
      (.filterParam 1 none 8)
    = .ok ({ qType := .rrset, bounds := { lastAfter := some 8 } }, true) := by decide +kernel

/-! ## What a query does depends on its parameters only -/

/-- The query with values whose flag is off wiped. -/
private def canon (q : Query) : Query :=
  { q with
    rrtype := if q.doRrtype then q.rrtype else 0
    vType := if q.hasVType then q.vType else 0
    lim := { q.lim with timeout := if q.lim.doTimeout then q.lim.timeout else ⟨0, 0⟩
                        deadline := if q.lim.doDeadline then q.lim.deadline else ⟨0, 0⟩ } }

private theorem canon_init (q : Query) : initKind (canon q) = initKind q := by
  rcases q with ⟨t, dr, rr, lim, ag, cs, bo, nm, bw, i1, i2, rd, ln, off, hvt, vt⟩
  cases t with
  | rrset => cases dr <;> rfl
  | rdataName => cases dr <;> rfl
  | rdataIp => cases dr <;> rfl
  | rdataRaw => cases dr <;> rfl
  | timeRange => rfl
  | sourceInfo => rfl
  | version => cases hvt <;> rfl

private theorem canon_assemble (q : Query) (S : Sources) (p : Plan) : assemble (canon q) S p = assemble q S p := rfl

private theorem canon_arm (q : Query) (w : World) : armTimer (canon q).lim w = armTimer q.lim w := by
  rcases q with ⟨t, dr, rr, ⟨dt, tm, dd, dl⟩, ag, cs, bo, nm, bw, i1, i2, rd, ln, off, hvt, vt⟩
  cases dt <;> cases dd <;> rfl

private theorem canon_key (q : Query) (tb : UInt8) (kv : KV) : indirectKey (canon q) tb kv = indirectKey q tb kv := by
  rcases q with ⟨t, dr, rr, lim, ag, cs, bo, nm, bw, i1, i2, rd, ln, off, hvt, vt⟩
  cases dr
  · simp [indirectKey, indirectType, canon]
  · rfl

private theorem canon_loop (q : Query) (tb : UInt8) (I M : Mach) : ∀ (n : Nat) (i : I.St) (m : Option M.St) (w : World),
    indirectLoop (canon q) tb I M n i m w = indirectLoop q tb I M n i m w := by
  intro n
  induction n with
  | zero => intro i m w; cases m <;> rfl
  | succ n ih =>
    intro i m w
    cases m with
    | some s => simp only [indirectLoop, ih]
    | none => simp only [indirectLoop, canon_key, ih]

private theorem canon_next (q : Query) (B : Built) (s : QSt B) (w : World) :
    queryNext (canon q) B s w = queryNext q B s w := by
  unfold queryNext
  rw [canon_arm]
  cases s with
  | direct s => rfl
  | indirect tb i m => simp only [canon_loop]

private theorem canon_eq {q q' : Query} (h : ∀ p, view p q = view p q') : canon q = canon q' := by
  rcases q with ⟨t, dr, rr, ⟨dt, tm, dd, dl⟩, ag, cs, ⟨b1, b2, b3, b4⟩, nm, bw, i1, i2, rd, ln, off, hvt, vt⟩
  rcases q' with ⟨t', dr', rr', ⟨dt', tm', dd', dl'⟩, ag', cs', ⟨c1, c2, c3, c4⟩, nm', bw', i1', i2', rd', ln', off', hvt', vt'⟩
  have e1 := h .caseSensitive; have e2 := h .bailiwick; have e3 := h .data; have e4 := h .rrtype
  have e5 := h .offset; have e6 := h .aggregated; have e7 := h .timeout; have e8 := h .deadline
  have e9 := h .firstBefore; have e10 := h .firstAfter; have e11 := h .lastBefore; have e12 := h .lastAfter
  simp only [view, Query.mk.injEq, Limits.mk.injEq, Bounds.mk.injEq, and_true, true_and] at e1 e2 e3 e4 e5 e6 e7 e8 e9 e10 e11 e12
  simp only [canon, Query.mk.injEq, Limits.mk.injEq, Bounds.mk.injEq]
  exact ⟨e1.1, e4.2.1, e4.2.2, ⟨e7.2.1, e7.2.2, e8.2.1, e8.2.2⟩, e6.2, e1.2, ⟨e9.2, e10.2, e11.2, e12.2⟩, e3.2.1, e2.2,
    e3.2.2.1, e3.2.2.2.1, e3.2.2.2.2.1, e3.2.2.2.2.2.1, e5.2, e3.2.2.2.2.2.2.1, e3.2.2.2.2.2.2.2⟩

/-- C43: queries agreeing in every parameter are opened alike, put the same filters on their sources, and every
single `dnstable_iter_next` behaves the same; values left over from cleared parameters have no effect. -/
theorem C43_observable (q q' : Query) (h : ∀ p, view p q = view p q') :
    initKind q = initKind q' ∧ (∀ S p, assemble q S p = assemble q' S p) ∧
    ∀ (B : Built) (s : QSt B) (w : World), queryNext q B s w = queryNext q' B s w := by
  have e := canon_eq h
  refine ⟨?_, fun S p => ?_, fun B s w => ?_⟩
  · rw [← canon_init q, ← canon_init q', e]
  · rw [← canon_assemble q, ← canon_assemble q', e]
  · rw [← canon_next q, ← canon_next q', e]

/-- A record type cleared again leaves its number behind, without effect. -/
example : ∀ p ∈ [Param.rrtype, .data, .timeout, .bailiwick],
    view p { qType := .rrset, name := [1, 97, 0], rrtype := 15 } = view p { qType := .rrset, name := [1, 97, 0] } := by
  decide +kernel

/-! ## Where the claim fails -/

/-- C43 fails: a rejected name is not kept out, the previous search name is lost. -/
theorem C43_name_counterexample :
    applySetter strictArith exLibs { qType := .rrset, name := [1, 97, 0] } (.data (some (lit "nonsense")))
      = .ok ({ qType := .rrset }, false) ∧
    applySetter strictArith exLibs { qType := .rrset, bailiwick := some [1, 97, 0] } (.bailiwick (some (lit "nonsense")))
      = .ok ({ qType := .rrset }, false) := by decide +kernel

/-- C43 fails: after a rejected hexadecimal string, and after clearing the raw data, the query is not usable; running it
reads from a null pointer. -/
theorem C43_raw_counterexample :
    (∃ q, applySetters strictArith exLibs { qType := .rdataRaw } [.data (some (lit "zz"))] = .ok (q, [false]) ∧
      initKind q = .fault .nullDeref) ∧
    (∃ q, applySetters strictArith exLibs { qType := .rdataRaw } [.data (some (lit "0a0b")), .data none]
        = .ok (q, [true, true]) ∧ initKind q = .fault .nullDeref) :=
  ⟨⟨{ qType := .rdataRaw, lenRdata := 1 }, by decide +kernel, rfl⟩,
    ⟨{ qType := .rdataRaw, lenRdata := 2 }, by decide +kernel, rfl⟩⟩

/-- C43 fails: a rejected address or range replaces the previous address; the query then aborts. -/
theorem C43_address_counterexample :
    ∃ q, applySetters strictArith exLibs { qType := .rdataIp } [.data (some (lit "10.1.2.3")), .data (some (lit "10.1.2.3.4"))]
        = .ok (q, [true, false]) ∧ initKind q = .fault .abort :=
  ⟨{ qType := .rdataIp, doRrtype := true, rrtype := 1 }, by decide +kernel, rfl⟩

/-- C43 fails: clearing the version type has no effect. -/
theorem C43_clear_counterexample :
    applySetters strictArith exLibs { qType := .version } [.data (some (lit "rrset")), .data none]
      = .ok ({ qType := .version, hasVType := true, vType := 0 }, [true, true]) ∧
    view .data { qType := .version, hasVType := true, vType := 0 } ≠ view .data { qType := .version } := by
  decide +kernel

/-- C43 fails: in address queries the order of setting type and address matters, and clearing the type makes the query
abort instead of removing a restriction. -/
theorem C43_order_counterexample :
    (∃ q q', applySetters strictArith exLibs { qType := .rdataIp } [.rrtype (some (lit "MX")), .data (some (lit "10.1.2.3"))]
        = .ok (q, [true, true]) ∧
      applySetters strictArith exLibs { qType := .rdataIp } [.data (some (lit "10.1.2.3")), .rrtype (some (lit "MX"))]
        = .ok (q', [true, true]) ∧ q.rrtype ≠ q'.rrtype) ∧
    ∃ q, applySetters strictArith exLibs { qType := .rdataIp } [.data (some (lit "10.1.2.3")), .rrtype none]
        = .ok (q, [true, true]) ∧ initKind q = .fault .abort :=
  ⟨⟨{ qType := .rdataIp, ip1 := [10, 1, 2, 3], doRrtype := true, rrtype := 1 },
    { qType := .rdataIp, ip1 := [10, 1, 2, 3], doRrtype := true, rrtype := 15 }, by decide +kernel, by decide +kernel, by decide⟩,
    ⟨{ qType := .rdataIp, ip1 := [10, 1, 2, 3], doRrtype := false, rrtype := 1 }, by decide +kernel, rfl⟩⟩

end Verif.Props
