import Verif.Model.QueryFilter
import Verif.Spec.Accept
import Verif.Lemmas.Emits
import Verif.Lemmas.Names
import Verif.Lemmas.Varint

/-!
# Lemmas on `dnstable_query_filter`
-/

namespace Verif
open Spec

theorem out_bind {α β : Type} {x : Out α} {f : α → Out β} {b : β} (h : (x >>= f) = .ok b) :
    ∃ a, x = .ok a ∧ f a = .ok b := by
  cases x with
  | ok a => exact ⟨a, rfl, h⟩
  | fail => cases h
  | fault e => cases h

theorem reverseName_ok {b r : Bytes} (h : reverseName b = .ok r) :
    ∃ n, legalLabels n ∧ b = wire n ∧ r = wire n.reverse := by
  unfold reverseName at h
  split at h
  · rename_i ls hp
    obtain ⟨hl, hb⟩ := parseLabels_some hp
    cases h
    exact ⟨ls, hl, by simpa using hb, rfl⟩
  · cases h

theorem getRrtype_shown (e : Entry) : e.getRrtype = Out.ofOption (shownType e) := by
  unfold Entry.getRrtype shownType tRRSET tRDATA
  split <;> rfl

theorem getTimeFirst_shown (e : Entry) : e.getTimeFirst = Out.ofOption ((shownTimes e).map (·.1)) := by
  unfold Entry.getTimeFirst shownTimes tRRSET tRDATA tTIME_RANGE
  split <;> rfl

theorem getTimeLast_shown (e : Entry) : e.getTimeLast = Out.ofOption ((shownTimes e).map (·.2)) := by
  unfold Entry.getTimeLast shownTimes tRRSET tRDATA tTIME_RANGE
  split <;> rfl

theorem getBailiwick_shown (e : Entry) : e.getBailiwick = Out.ofOption (shownBailiwick e) := by
  unfold Entry.getBailiwick shownBailiwick tRRSET
  split <;> rfl

theorem nameTypes_eq (t : Nat) : rdataNameTypes.contains t = true ↔ t ∈ namedTypes := by
  simp only [rdataNameTypes, standaloneTypes, namedTypes, List.contains_iff_mem, List.mem_append,
    List.mem_cons, List.not_mem_nil, or_false]
  omega

theorem filterEntryType_true {q : Query} {e : Entry} : filterEntryType q e = .ok true ↔
    ((q.doRrtype = true → shownType e = some q.rrtype) ∧
      (q.doRrtype = false → q.qType = .rdataName → ∃ t ∈ namedTypes, shownType e = some t)) := by
  unfold filterEntryType
  rw [getRrtype_shown]
  cases hd : q.doRrtype <;> rcases hs : shownType e with _ | t <;> simp only [Out.ofOption]
  · by_cases hq : q.qType = .rdataName <;> simp [hq]
  · by_cases hq : q.qType = .rdataName
    · simp [hq]
      rw [← List.contains_iff_mem, nameTypes_eq]
    · simp [hq]
  · simp
  · simp

theorem filterEntryType_safe (q : Query) (e : Entry) : (filterEntryType q e).safe := by
  unfold filterEntryType
  rw [getRrtype_shown]
  cases q.doRrtype <;> rcases shownType e with _ | t <;> by_cases hq : q.qType = .rdataName <;>
    simp [Out.ofOption, Out.safe, hq]

theorem filterEntryTime_true {a b : Option Nat} {o : Option Nat} :
    filterEntryTime a b (Out.ofOption o) = .ok true ↔
      ((a.isSome || b.isSome) = true → ∃ t, o = some t ∧ (∀ x, a = some x → t ≤ x) ∧ (∀ x, b = some x → x ≤ t)) := by
  unfold filterEntryTime
  rcases a with _ | a <;> rcases b with _ | b <;> rcases o with _ | t <;>
    simp [Out.ofOption]
  by_cases h : a < t <;> by_cases h' : t < b <;> simp [h, h'] <;> omega

theorem filterEntryTime_safe (a b o : Option Nat) : (filterEntryTime a b (Out.ofOption o)).safe := by
  unfold filterEntryTime
  rcases a with _ | a <;> rcases b with _ | b <;> rcases o with _ | t <;>
    simp only [Out.ofOption, Out.safe, Option.isSome, Bool.or_self, Bool.or_true, Bool.or_false, if_true,
      Out.ok_bind, Out.fail_bind, Option.any] <;> (try trivial)
  all_goals
    split
    · rename_i h
      revert h
      split
      · simp
      · try split
        all_goals simp
    · trivial

theorem filterEntryBailiwick_true {q : Query} {e : Entry} (hq : ∀ b, q.bailiwick = some b → b.length ≤ 255) :
    filterEntryBailiwick q e = .ok true ↔ (q.qType = .rrset → ∀ b, q.bailiwick = some b →
      ∃ n, legalLabels n ∧ b = wire n.reverse ∧ shownBailiwick e = some (wire n)) := by
  unfold filterEntryBailiwick
  split
  · rename_i bw ht hb
    rw [getBailiwick_shown]
    have hlen := hq bw hb
    constructor
    · intro h _ b hb'
      rw [hb] at hb'; cases hb'
      obtain ⟨x, hx, h⟩ := out_bind h
      rcases hs : shownBailiwick e with _ | y
      · rw [hs] at hx; cases hx
      · rw [hs] at hx; cases hx
        split at h
        · cases h
        · split at h
          · cases h
          · cases h
          · rename_i rev hr
            obtain ⟨n, hn, rfl, rfl⟩ := reverseName_ok hr
            split at h
            · cases h
            · exact ⟨n, hn, by simpa using h, rfl⟩
    · intro h
      obtain ⟨n, hn, rfl, hs⟩ := h ht bw hb
      rw [hs]
      have hl := wire_reverse_length n
      simp only [Out.ofOption, Out.ok_bind]
      rw [if_neg (by simp [hl]), reverseName_wire hn]
      simp only
      rw [if_neg (by unfold maxLenName; omega)]
      simp
  · rename_i hne
    simp only [true_iff]
    intro ht b hb
    exact absurd hb (hne b ht)

theorem filterEntryBailiwick_safe {q : Query} (e : Entry) (hq : ∀ b, q.bailiwick = some b → b.length ≤ 255) :
    (filterEntryBailiwick q e).safe := by
  unfold filterEntryBailiwick
  split
  · rename_i bw ht hb
    have hlen := hq bw hb
    rw [getBailiwick_shown]
    rcases shownBailiwick e with _ | y
    · trivial
    · simp only [Out.ofOption, Out.ok_bind]
      split
      · trivial
      · split
        · trivial
        · rename_i f hf
          unfold reverseName at hf
          split at hf <;> cases hf
        · split
          · rename_i h1 _ _ _ h2
            have : bw.length = y.length := by simpa using h1
            unfold maxLenName at h2
            omega
          · trivial
  · trivial

theorem any_split (b : Bounds) : b.any = true ↔
    ((b.firstBefore.isSome || b.firstAfter.isSome) = true ∨ (b.lastBefore.isSome || b.lastAfter.isSome) = true) := by
  unfold Bounds.any
  simp [or_assoc]

theorem queryFilter_true {q : Query} {e : Entry} (hq : ∀ b, q.bailiwick = some b → b.length ≤ 255) :
    queryFilter q e = .ok true ↔ Meets q e := by
  have hA := @filterEntryType_true q e
  have hF := @filterEntryTime_true q.bounds.firstBefore q.bounds.firstAfter ((shownTimes e).map (·.1))
  have hL := @filterEntryTime_true q.bounds.lastBefore q.bounds.lastAfter ((shownTimes e).map (·.2))
  have hB := @filterEntryBailiwick_true q e hq
  rw [← getTimeFirst_shown] at hF
  rw [← getTimeLast_shown] at hL
  have key : queryFilter q e = .ok true ↔ filterEntryType q e = .ok true ∧
      filterEntryTime q.bounds.firstBefore q.bounds.firstAfter e.getTimeFirst = .ok true ∧
      filterEntryTime q.bounds.lastBefore q.bounds.lastAfter e.getTimeLast = .ok true ∧
      filterEntryBailiwick q e = .ok true := by
    unfold queryFilter
    rcases filterEntryType q e with (_ | _) | _ | _
    · simp
    · rcases filterEntryTime q.bounds.firstBefore q.bounds.firstAfter e.getTimeFirst with (_ | _) | _ | _
      · simp
      · rcases filterEntryTime q.bounds.lastBefore q.bounds.lastAfter e.getTimeLast with (_ | _) | _ | _ <;> simp
      · simp
      · simp
    · simp
    · simp
  rw [key, hA, hF, hL, hB]
  constructor
  · rintro ⟨⟨h1, h2⟩, h3, h4, h5⟩
    refine ⟨h1, h2, fun ha => ?_, h5⟩
    have ht : ∃ t, shownTimes e = some t := by
      rcases (any_split _).mp ha with h | h
      · obtain ⟨t, ht, -⟩ := h3 h
        rcases hs : shownTimes e with _ | t'
        · rw [hs] at ht; cases ht
        · exact ⟨t', rfl⟩
      · obtain ⟨t, ht, -⟩ := h4 h
        rcases hs : shownTimes e with _ | t'
        · rw [hs] at ht; cases ht
        · exact ⟨t', rfl⟩
    obtain ⟨t, ht⟩ := ht
    refine ⟨t, ht, ?_⟩
    rw [ht] at h3 h4
    refine ⟨fun x hx => ?_, fun x hx => ?_, fun x hx => ?_, fun x hx => ?_⟩
    · obtain ⟨_, h, ha, hb⟩ := h3 (by simp [hx]); cases h; exact ha x hx
    · obtain ⟨_, h, ha, hb⟩ := h3 (by simp [hx]); cases h; exact hb x hx
    · obtain ⟨_, h, ha, hb⟩ := h4 (by simp [hx]); cases h; exact ha x hx
    · obtain ⟨_, h, ha, hb⟩ := h4 (by simp [hx]); cases h; exact hb x hx
  · rintro ⟨h1, h2, h3, h4⟩
    refine ⟨⟨h1, h2⟩, fun h => ?_, fun h => ?_, h4⟩
    · obtain ⟨t, ht, hw⟩ := h3 ((any_split _).mpr (.inl h))
      exact ⟨t.1, by rw [ht]; rfl, hw.firstBefore, hw.firstAfter⟩
    · obtain ⟨t, ht, hw⟩ := h3 ((any_split _).mpr (.inr h))
      exact ⟨t.2, by rw [ht]; rfl, hw.lastBefore, hw.lastAfter⟩

theorem queryFilter_safe {q : Query} (e : Entry) (hq : ∀ b, q.bailiwick = some b → b.length ≤ 255) :
    (queryFilter q e).safe := by
  have hA := filterEntryType_safe q e
  have hF := filterEntryTime_safe q.bounds.firstBefore q.bounds.firstAfter ((shownTimes e).map (·.1))
  have hL := filterEntryTime_safe q.bounds.lastBefore q.bounds.lastAfter ((shownTimes e).map (·.2))
  have hB := filterEntryBailiwick_safe e hq
  rw [← getTimeFirst_shown] at hF
  rw [← getTimeLast_shown] at hL
  unfold queryFilter
  rcases hAe : filterEntryType q e with (_ | _) | _ | _
  · trivial
  · rcases hFe : filterEntryTime q.bounds.firstBefore q.bounds.firstAfter e.getTimeFirst with (_ | _) | _ | _
    · trivial
    · rcases hLe : filterEntryTime q.bounds.lastBefore q.bounds.lastAfter e.getTimeLast with (_ | _) | _ | _
      · trivial
      · exact hB
      · trivial
      · rw [hLe] at hL; exact hL.elim
    · trivial
    · rw [hFe] at hF; exact hF.elim
  · trivial
  · rw [hAe] at hA; exact hA.elim

/-! ## Rows that pass the filters -/

/-- A decoded RRset. -/
theorem decode_rrset_shape {key val : Bytes} {e : Entry} {buf : Bytes} (hk : key = 0 :: buf)
    (h : entryDecode key val = .ok e) :
    ∃ (own bw : Name) (nt t : Nat) (rest : Bytes) (f l c : Nat),
      legalLabels own ∧ legalLabels bw ∧ (wire bw).length ≤ 255 ∧ buf = wire own ++ rest ∧
      varintDecode32 rest = .ok (nt, t) ∧ (∃ tail, rest.drop nt = wire bw ++ tail) ∧
      tripletUnpack val = .ok (f, l, c) ∧ e.eType = 0 ∧ e.rrtype = t ∧ e.bailiwick = wire bw.reverse ∧
      e.timeFirst = f ∧ e.timeLast = if l = 0 then f else l := by
  subst hk
  have hname : ∀ {p r : Bytes} {n : Nat}, decodeName p = .ok (r, n) →
      ∃ ls tail, legalLabels ls ∧ p = wire ls ++ tail ∧ n = (wire ls).length ∧ n ≤ 255 ∧ r = wire ls.reverse := by
    intro p r n hd
    unfold decodeName at hd
    obtain ⟨len, hl, hd⟩ := out_bind hd
    obtain ⟨rev, hr, hd⟩ := out_bind hd
    split at hd
    · cases hd
    · rename_i hmax
      cases hd
      unfold lenUname at hl
      split at hl
      · rename_i ls tail hp
        cases hl
        obtain ⟨hls, rfl⟩ := parseLabels_some hp
        have hlen : (wire ls ++ tail).length - tail.length = (wire ls).length := by simp
        rw [hlen] at hr hmax ⊢
        rw [List.take_left' rfl, reverseName_wire hls] at hr
        cases hr
        exact ⟨ls, tail, hls, rfl, rfl, by unfold maxLenName at hmax; omega, rfl⟩
      · cases hl
  unfold entryDecode at h
  simp only at h
  rw [if_pos (by decide)] at h
  obtain ⟨e1, h1, h2⟩ := out_bind h
  unfold decodeRrset at h1
  obtain ⟨⟨name, ln⟩, hn, h1⟩ := out_bind h1
  obtain ⟨⟨nt, t⟩, hv, h1⟩ := out_bind h1
  obtain ⟨⟨bw, lb⟩, hb, h1⟩ := out_bind h1
  simp only at h1
  obtain ⟨ds, hds, hlast⟩ := out_bind h1
  obtain ⟨own, rest, hown, rfl, rfl, -, -⟩ := hname hn
  obtain ⟨bn, tail, hbn, hbt, rfl, hlb, rfl⟩ := hname hb
  simp only [List.drop_left' rfl] at hv hbt
  unfold decodeValTriplet at h2
  obtain ⟨⟨f, l, c⟩, ht, h2⟩ := out_bind h2
  cases hlast
  cases h2
  exact ⟨own, bn, nt, t, rest, f, l, c, hown, hbn, hlb, rfl, hv, ⟨tail, hbt⟩, ht, rfl, rfl, rfl, rfl, rfl⟩

/-- A decoded record. -/
theorem decode_rdata_shape {key val : Bytes} {e : Entry} {buf : Bytes} (hk : key = 2 :: buf)
    (h : entryDecode key val = .ok e) :
    ∃ (lo hi : UInt8) (nt t f l c : Nat), 2 ≤ buf.length ∧
      byteAt buf (buf.length - 2) = .ok lo ∧ byteAt buf (buf.length - 1) = .ok hi ∧
      varintDecode32 (buf.drop (lo.toNat + 256 * hi.toNat)) = .ok (nt, t) ∧
      tripletUnpack val = .ok (f, l, c) ∧ e.eType = 2 ∧ e.rrtype = t ∧
      e.timeFirst = f ∧ e.timeLast = if l = 0 then f else l := by
  subst hk
  unfold entryDecode at h
  simp only at h
  rw [if_neg (by decide), if_neg (by decide), if_pos (by decide)] at h
  obtain ⟨e1, h1, h2⟩ := out_bind h
  unfold decodeRdata at h1
  split at h1
  · cases h1
  · rename_i hlen
    obtain ⟨lo, hlo, h1⟩ := out_bind h1
    obtain ⟨hi, hhi, h1⟩ := out_bind h1
    simp only at h1
    split at h1
    · cases h1
    · obtain ⟨⟨nt, t⟩, hv, h1⟩ := out_bind h1
      simp only at h1
      split at h1
      · cases h1
      · obtain ⟨⟨nm, ln⟩, -, h1⟩ := out_bind h1
        unfold decodeValTriplet at h2
        obtain ⟨⟨f, l, c⟩, ht, h2⟩ := out_bind h2
        cases h1
        cases h2
        rw [show buf.length - 2 + 1 = buf.length - 1 from by omega] at hhi
        exact ⟨lo, hi, nt, t, f, l, c, by omega, hlo, hhi, hv, ht, rfl, rfl, rfl, rfl⟩

theorem rrtypePosRrset_wire {own : Name} (h : legalLabels own) (rest : Bytes) {p : Nat}
    (hp : rrtypePosRrset (0 :: (wire own ++ rest)) = some p) : p = (wire own).length + 1 := by
  unfold rrtypePosRrset at hp
  rw [show (0 :: (wire own ++ rest) : Bytes).drop 1 = wire own ++ rest from rfl, parseLabels_wire h] at hp
  simp only at hp
  split at hp
  · cases hp
  · cases hp; simp

theorem rrtypeMatch_key {want : Nat} {key : Bytes} (h : rrtypeMatch want key = .ok true) :
    (∃ buf, key = 0 :: buf) ∨ ∃ buf, key = 2 :: buf := by
  unfold rrtypeMatch at h
  obtain ⟨t, ht, h⟩ := out_bind h
  rcases key with _ | ⟨k, buf⟩
  · cases ht
  · have : k = t := by simpa [byteAt] using ht
    subst this
    by_cases h0 : k.toNat = tRRSET
    · left; exact ⟨buf, by rw [show k = 0 from UInt8.toNat_inj.mp h0]⟩
    · by_cases h2 : k.toNat = tRDATA
      · right; exact ⟨buf, by rw [show k = 2 from UInt8.toNat_inj.mp h2]⟩
      · rw [if_neg h0, if_neg h2] at h; cases h

theorem rrtypeMatch_at_rrset {want : Nat} {own : Name} (hown : legalLabels own) {rest : Bytes}
    (h : rrtypeMatch want (0 :: (wire own ++ rest)) = .ok true) {nt t : Nat}
    (hv : varintDecode32 rest = .ok (nt, t)) : t = want := by
  unfold rrtypeMatch at h
  rw [show byteAt (0 :: (wire own ++ rest)) 0 = .ok 0 from rfl] at h
  simp only [Out.ok_bind] at h
  rw [if_pos (by decide)] at h
  rcases hp : rrtypePosRrset (0 :: (wire own ++ rest)) with _ | p
  · rw [hp] at h; cases h
  · rw [hp] at h
    have := rrtypePosRrset_wire hown rest hp
    subst this
    simp only at h
    rw [List.drop_succ_cons, List.drop_left' rfl, hv] at h
    simp only [Out.ok_bind] at h
    split at h
    · cases h
    · simpa using h

theorem rrtypePosRdata_pos {buf : Bytes} {lo hi : UInt8} (h2 : 2 ≤ buf.length)
    (hlo : byteAt buf (buf.length - 2) = .ok lo) (hhi : byteAt buf (buf.length - 1) = .ok hi) {p : Nat}
    (h : rrtypePosRdata (2 :: buf) = .ok (some p)) : p = lo.toNat + 256 * hi.toNat + 1 := by
  unfold rrtypePosRdata at h
  rw [if_neg (by simp; omega)] at h
  obtain ⟨n, hn⟩ : ∃ n, buf.length = n + 2 := ⟨buf.length - 2, by omega⟩
  have e1 : byteAt (2 :: buf) ((2 :: buf).length - 2) = byteAt buf (buf.length - 2) := by
    simp [byteAt, hn]
  have e2 : byteAt (2 :: buf) ((2 :: buf).length - 1) = byteAt buf (buf.length - 1) := by
    simp [byteAt, hn]
  rw [e1, e2, hlo, hhi] at h
  simp only [Out.ok_bind] at h
  split at h
  · cases h
  · cases h
    unfold le16
    first | rfl | omega

theorem rrtypeMatch_at_rdata {want : Nat} {buf : Bytes} {lo hi : UInt8} (h2 : 2 ≤ buf.length)
    (hlo : byteAt buf (buf.length - 2) = .ok lo) (hhi : byteAt buf (buf.length - 1) = .ok hi)
    (h : rrtypeMatch want (2 :: buf) = .ok true) {nt t : Nat}
    (hv : varintDecode32 (buf.drop (lo.toNat + 256 * hi.toNat)) = .ok (nt, t)) : t = want := by
  unfold rrtypeMatch at h
  rw [show byteAt (2 :: buf) 0 = .ok 2 from rfl] at h
  simp only [Out.ok_bind] at h
  rw [if_neg (by decide), if_pos (by decide)] at h
  obtain ⟨pos, hp, h⟩ := out_bind h
  rcases pos with _ | p
  · cases h
  · have := rrtypePosRdata_pos h2 hlo hhi hp
    subst this
    simp only at h
    rw [List.drop_succ_cons, hv] at h
    simp only [Out.ok_bind] at h
    split at h
    · cases h
    · simpa using h

theorem rdataNameMatch_at_rdata {buf : Bytes} {lo hi : UInt8} (h2 : 2 ≤ buf.length)
    (hlo : byteAt buf (buf.length - 2) = .ok lo) (hhi : byteAt buf (buf.length - 1) = .ok hi)
    (h : rdataNameMatch (2 :: buf) = .ok true) {nt t : Nat}
    (hv : varintDecode32 (buf.drop (lo.toNat + 256 * hi.toNat)) = .ok (nt, t)) : t ∈ namedTypes := by
  unfold rdataNameMatch at h
  obtain ⟨pos, hp, h⟩ := out_bind h
  rcases pos with _ | p
  · cases h
  · have := rrtypePosRdata_pos h2 hlo hhi hp
    subst this
    simp only at h
    rw [List.drop_succ_cons, hv] at h
    simp only [Out.ok_bind] at h
    exact (nameTypes_eq t).mp (by simpa using h)

theorem bailiwickMatch_at_rrset {bw : Bytes} {own bn : Name} (hown : legalLabels own) (hbn : legalLabels bn)
    {rest tail : Bytes} (h : bailiwickMatch bw (0 :: (wire own ++ rest)) = .ok true) {nt t : Nat}
    (hv : varintDecode32 rest = .ok (nt, t)) (hb : rest.drop nt = wire bn ++ tail) : bw = wire bn := by
  unfold bailiwickMatch at h
  rcases hp : rrtypePosRrset (0 :: (wire own ++ rest)) with _ | p
  · rw [hp] at h; cases h
  · rw [hp] at h
    have := rrtypePosRrset_wire hown rest hp
    subst this
    simp only at h
    have hd : (0 :: (wire own ++ rest) : Bytes).drop ((wire own).length + 1) = rest := by
      rw [List.drop_succ_cons, List.drop_left' rfl]
    rw [hd, hv] at h
    simp only [Out.ok_bind] at h
    have hd2 : (0 :: (wire own ++ rest) : Bytes).drop ((wire own).length + 1 + nt) = wire bn ++ tail := by
      rw [← List.drop_drop, hd, hb]
    split at h
    · cases h
    · rw [hd2, parseLabels_wire hbn] at h
      simp only at h
      have hl : (wire bn ++ tail).length - tail.length = (wire bn).length := by simp
      rw [hl, List.take_left' rfl] at h
      have : wire bn = bw := by simpa using h
      exact this.symm

/-- A row of the main source that the filters `fs` pass, and its key is the one given. -/
def PassedKey (R : Src) (fs : List Filt) (key : Bytes) : Prop :=
  ∃ v, (key, v) ∈ R.rows ∧ ∀ f ∈ fs, f.2 (key, v) = .pass

theorem key_head {V : View} {key : Bytes} {t : UInt8} {k : Bytes} (hV : V = .pfx (t :: k))
    (h : V.ok key = true) : ∃ buf, key = t :: buf := by
  subst hV
  simp only [View.ok, List.isPrefixOf_iff_prefix] at h
  obtain ⟨s, rfl⟩ := h
  exact ⟨k ++ s, rfl⟩

theorem shown_of_rrset {e : Entry} (h : e.eType = 0) :
    shownType e = some (e.rrtype % 65536) ∧ shownTimes e = some (e.timeFirst, e.timeLast) ∧
      shownBailiwick e = some e.bailiwick := by
  simp [shownType, shownTimes, shownBailiwick, h]

theorem shown_of_rdata {e : Entry} (h : e.eType = 2) :
    shownType e = some (e.rrtype % 65536) ∧ shownTimes e = some (e.timeFirst, e.timeLast) := by
  simp [shownType, shownTimes, h]

/-- The entry's type is the one a passed type filter asked for. -/
theorem typed_of_match {want : Nat} {key val : Bytes} {e : Entry} (h : rrtypeMatch want key = .ok true)
    (hd : entryDecode key val = .ok e) (hw : want < 65536) : shownType e = some want := by
  rcases rrtypeMatch_key h with ⟨buf, rfl⟩ | ⟨buf, rfl⟩
  · obtain ⟨own, bw, nt, t, rest, f, l, c, hown, -, -, rfl, hv, -, -, h0, hr, -⟩ := decode_rrset_shape rfl hd
    have := rrtypeMatch_at_rrset hown h hv
    rw [(shown_of_rrset h0).1, hr, this, Nat.mod_eq_of_lt hw]
  · obtain ⟨lo, hi, nt, t, f, l, c, h2, hlo, hhi, hv, -, h0, hr, -⟩ := decode_rdata_shape rfl hd
    have := rrtypeMatch_at_rdata h2 hlo hhi h hv
    rw [(shown_of_rdata h0).1, hr, this, Nat.mod_eq_of_lt hw]

theorem bailiwick_of_match {b buf val : Bytes} {e : Entry} (h : bailiwickMatch b (0 :: buf) = .ok true)
    (hd : entryDecode (0 :: buf) val = .ok e) :
    ∃ n, legalLabels n ∧ b = wire n.reverse ∧ shownBailiwick e = some (wire n) := by
  obtain ⟨own, bw, nt, t, rest, f, l, c, hown, hbw, -, rfl, hv, ⟨tail, hb⟩, -, h0, -, hbe, -⟩ :=
    decode_rrset_shape rfl hd
  have := bailiwickMatch_at_rrset hown hbw h hv hb
  exact ⟨bw.reverse, legalLabels_reverse.mpr hbw, by simpa using this, by rw [(shown_of_rrset h0).2.2, hbe]⟩

/-- Times: what the raw times passed, the shown ones do if the last time is set. -/
theorem within_of_match {b : Bounds} {val : Bytes} {f l c : Nat} (ht : tripletUnpack val = .ok (f, l, c))
    (h : timeMatch b false val = .ok true)
    (hz : b.lastBefore = none ∨ l ≠ 0 ∨ ∃ x, b.lastAfter = some x ∧ 0 < x) :
    WithinBounds b (f, if l = 0 then f else l) := by
  unfold timeMatch at h
  rw [ht] at h
  simp only at h
  obtain ⟨fb, fa, lb, la⟩ := b
  simp only at h hz
  by_cases h1 : fa.any (fun x => decide (f < x)) = true
  · rw [if_pos h1] at h; cases h
  · rw [if_neg h1] at h
    by_cases h2 : lb.any (fun x => decide (l > x)) = true
    · rw [if_pos h2] at h; cases h
    · rw [if_neg h2] at h
      by_cases h3 : la.any (fun x => decide (l < x)) = true
      · rw [if_pos h3] at h; cases h
      · rw [if_neg h3] at h
        by_cases h4 : fb.any (fun x => decide (f > x)) = true
        · rw [if_pos h4] at h; cases h
        · refine ⟨?_, ?_, ?_, ?_⟩
          · rintro x rfl; simpa using h4
          · rintro x rfl; simpa using h1
          · rintro x rfl
            have h2' : l ≤ x := by simpa using h2
            rcases hz with hz | hz | ⟨y, rfl, hy⟩
            · cases hz
            · simp only [if_neg hz]; exact h2'
            · have : y ≤ l := by simpa using h3
              simp only [if_neg (show l ≠ 0 by omega)]; exact h2'
          · rintro x rfl
            have h3' : x ≤ l := by simpa using h3
            simp only
            split
            · omega
            · exact h3'

theorem ipIncrement_ne_pass (seek : Bytes) (pos : Nat) : ipIncrement seek pos ≠ .pass := by
  unfold ipIncrement
  split
  · split <;> simp
  all_goals simp

theorem ipWalk_ne_pass (rrtype : Nat) (key : Bytes) : ∀ n seek, ipWalk rrtype key n seek ≠ .pass
  | 0, seek => by simp [ipWalk]
  | n + 1, seek => by
    unfold ipWalk
    split
    · simp
    · simp
    · split
      · exact ipIncrement_ne_pass _ _
      · split
        · split
          · simp
          · simp
          · split
            · simp
            · exact ipIncrement_ne_pass _ _
        · split
          · simp
          · exact ipWalk_ne_pass rrtype key n _

theorem ipSkip_ne_pass {rrtype qks : Nat} {key : Bytes} : ipSkip rrtype qks key ≠ .pass := by
  unfold ipSkip
  simp only
  split
  · split <;> simp
  · split
    · simp
    · simp
    · split
      · simp
      · simp
      · exact ipIncrement_ne_pass _ _
      · simp
      · split
        · simp
        · split
          · simp
          · simp
          · split
            · exact ipIncrement_ne_pass _ _
            · exact ipWalk_ne_pass _ _ _ _

/-- The parts of `Meets` that depend on the key alone, and that the entry is an RRset or a record. -/
theorem meets_key {q : Query} {p : Plan} (hp : initKind q = .ok p)
    (hq : q.qType = .rrset ∨ q.qType = .rdataName ∨ q.qType = .rdataIp ∨ q.qType = .rdataRaw)
    (hty : q.doRrtype = true → q.rrtype < 65536)
    (hbw : ∀ b, q.bailiwick = some b → ∃ n, legalLabels n ∧ b = wire n)
    {V : View} (hV : (p.indirect = none ∧ V = p.view) ∨ ∃ tb k, p.indirect = some tb ∧ V = .pfx (tb :: k))
    {key v val : Bytes} {e : Entry} (hok : V.ok key = true) (hf : ∀ f ∈ p.onSource, f.2 (key, v) = .pass)
    (hd : entryDecode key val = .ok e) :
    (q.doRrtype = true → shownType e = some q.rrtype) ∧
    (q.doRrtype = false → q.qType = .rdataName → ∃ t ∈ namedTypes, shownType e = some t) ∧
    (q.qType = .rrset → ∀ b, q.bailiwick = some b →
      ∃ n, legalLabels n ∧ b = wire n.reverse ∧ shownBailiwick e = some (wire n)) ∧
    ((∃ buf, key = 0 :: buf) ∨ ∃ buf, key = 2 :: buf) := by
  have typed : ∀ {fs : List Filt}, (∀ f ∈ rrtypeIf q ++ fs, f.2 (key, v) = .pass) → q.doRrtype = true →
      shownType e = some q.rrtype := by
    intro fs hfs hdo
    have := hfs (.filterRrtype, filterRrtype q.rrtype) (by simp [rrtypeIf, filtIf, hdo])
    exact typed_of_match (pass_of_verdict this) hd (hty hdo)
  have bailed : (∀ f ∈ bailiwickIf q, f.2 (key, v) = .pass) → (∃ buf, key = 0 :: buf) → ∀ b, q.bailiwick = some b →
      ∃ n, legalLabels n ∧ b = wire n.reverse ∧ shownBailiwick e = some (wire n) := by
    rintro hfs ⟨buf, rfl⟩ b hb
    have := hfs (.filterBailiwick, filterBailiwick b) (by simp [bailiwickIf, hb])
    exact bailiwick_of_match (pass_of_verdict this) hd
  unfold initKind at hp
  rcases hq with hq | hq | hq | hq
  · rw [hq] at hp ⊢
    simp only at hp
    refine (fun hmain => ⟨hmain.1, fun _ h => by (cases h), fun _ => hmain.2.1, .inl hmain.2.2⟩ :
      ((q.doRrtype = true → shownType e = some q.rrtype) ∧ (∀ b, q.bailiwick = some b →
        ∃ n, legalLabels n ∧ b = wire n.reverse ∧ shownBailiwick e = some (wire n)) ∧ ∃ buf, key = 0 :: buf) → _) ?_
    unfold initRrset at hp
    split at hp
    · -- left wildcard
      unfold initRrsetLeft at hp
      obtain ⟨k, hk, hp⟩ := out_bind hp
      cases hp
      unfold leftWildcardKey at hk
      obtain ⟨rev, -, hk⟩ := out_bind hk
      split at hk
      · cases hk
      · cases hk
        have hhead : ∃ buf, key = 0 :: buf := by
          rcases hV with ⟨-, hV⟩ | ⟨tb, k, h, -⟩
          · exact key_head hV hok
          · cases h
        simp only [List.append_assoc] at hf
        refine ⟨typed (fs := bailiwickIf q) fun f h => hf f (List.mem_append_right _ h),
          bailed (fun f h => hf f ?_) hhead, hhead⟩
        exact List.mem_append_right _ (List.mem_append_right _ h)
    · split at hp
      · -- right wildcard
        unfold initRrsetRight at hp
        cases hp
        have hhead : ∃ buf, key = 0 :: buf := by
          rcases hV with ⟨h, -⟩ | ⟨tb, k, h, hV⟩
          · cases h
          · cases h; exact key_head hV hok
        exact ⟨typed (fs := bailiwickIf q) fun f h => hf f h,
          bailed (fun f h => hf f (List.mem_append_right _ h)) hhead, hhead⟩
      · unfold initRrsetExact at hp
        obtain ⟨rev, hrev, hp⟩ := out_bind hp
        obtain ⟨n, hn, hname, rfl⟩ := reverseName_ok hrev
        split at hp
        · cases hp
        · cases hdo : q.doRrtype with
          | false =>
            rw [hdo] at hp
            cases hp
            have hhead : ∃ buf, key = 0 :: buf := by
              rcases hV with ⟨-, hV⟩ | ⟨tb, k, h, -⟩
              · exact key_head hV hok
              · cases h
            exact ⟨fun h => by (cases h), bailed hf hhead, hhead⟩
          | true =>
            rw [hdo] at hp
            simp only [if_true] at hp
            obtain ⟨k, hk, hp⟩ := out_bind hp
            cases hp
            unfold addRrtype at hk
            split at hk
            · cases hk
            · cases hk
              rcases hV with ⟨-, rfl⟩ | ⟨tb, k, h, -⟩
              · simp only [View.ok, List.isPrefixOf_iff_prefix] at hok
                obtain ⟨tail, hkey⟩ := hok
                have hty' := hty hdo
                have hkey' : key = 0 :: (wire n.reverse ++ (leb q.rrtype ++ (q.bailiwick.getD [] ++ tail))) := by
                  rw [← hkey, encode32_eq_leb (by omega)]
                  simp
                subst hkey'
                obtain ⟨own, bw, nt, t, rest, f, l, c, hown, hbwl, -, hsplit, hv, ⟨tl, hb⟩, -, h0, hr, hbe, -⟩ :=
                  decode_rrset_shape rfl hd
                obtain ⟨-, rfl⟩ := wire_append_inj (legalLabels_reverse.mpr hn) hown hsplit
                rw [decode32_leb (by omega)] at hv
                cases hv
                rw [List.drop_left' rfl] at hb
                refine ⟨fun _ => ?_, fun b hqb => ?_, _, rfl⟩
                · rw [(shown_of_rrset h0).1, hr, Nat.mod_eq_of_lt hty']
                · obtain ⟨m, hm, rfl⟩ := hbw b hqb
                  rw [hqb] at hb
                  obtain ⟨rfl, -⟩ := wire_append_inj hm hbwl hb
                  exact ⟨m.reverse, legalLabels_reverse.mpr hm, by simp,
                    by rw [(shown_of_rrset h0).2.2, hbe]⟩
              · cases h
  · -- names in data
    rw [hq] at hp ⊢
    simp only at hp
    have hfil : (∀ f ∈ p.onSource, f.2 (key, v) = .pass) → rdataNameFilter q ∈ p.onSource →
        (∃ buf, key = 2 :: buf) →
        (q.doRrtype = true → shownType e = some q.rrtype) ∧
        (q.doRrtype = false → QType.rdataName = .rdataName → ∃ t ∈ namedTypes, shownType e = some t) := by
      rintro hfs hmem ⟨buf, rfl⟩
      have hpass := hfs _ hmem
      unfold rdataNameFilter at hpass
      refine ⟨fun hdo => ?_, fun hdo _ => ?_⟩
      · rw [hdo] at hpass
        exact typed_of_match (pass_of_verdict hpass) hd (hty hdo)
      · rw [hdo] at hpass
        obtain ⟨lo, hi, nt, t, f, l, c, h2, hlo, hhi, hv, -, h0, hr, -⟩ := decode_rdata_shape rfl hd
        have := rdataNameMatch_at_rdata h2 hlo hhi (pass_of_verdict hpass) hv
        have hsmall : ∀ t ∈ namedTypes, t < 65536 := by decide
        exact ⟨t, this, by rw [(shown_of_rdata h0).1, hr, Nat.mod_eq_of_lt (hsmall t this)]⟩
    have fin : rdataNameFilter q ∈ p.onSource ∧ (∃ buf, key = 2 :: buf) := by
      unfold initRdataName at hp
      split at hp
      · unfold initRdataRight at hp
        cases hp
        rcases hV with ⟨-, hV⟩ | ⟨tb, k, h, -⟩
        · exact ⟨List.mem_cons_self, key_head hV hok⟩
        · cases h
      · split at hp
        · unfold initRdataLeft at hp
          obtain ⟨k, hk, hp⟩ := out_bind hp
          cases hp
          rcases hV with ⟨h, -⟩ | ⟨tb, k, h, hV⟩
          · cases h
          · cases h; exact ⟨List.mem_cons_self, key_head hV hok⟩
        · unfold initRdataExact at hp
          obtain ⟨k, hk, hp⟩ : ∃ k, (∃ s, k = 2 :: s) ∧
              p = { onSource := [rdataNameFilter q], view := .pfx k } := by
            split at hp
            · obtain ⟨k, hk, hp⟩ := out_bind hp
              cases hp
              unfold addRrtype at hk
              split at hk
              · cases hk
              · cases hk; exact ⟨_, ⟨_, rfl⟩, rfl⟩
            · cases hp; exact ⟨_, ⟨_, rfl⟩, rfl⟩
          obtain ⟨s, rfl⟩ := hk
          subst hp
          rcases hV with ⟨-, hV⟩ | ⟨tb, k, h, -⟩
          · exact ⟨List.mem_cons_self, key_head hV hok⟩
          · cases h
    have := hfil hf fin.1 fin.2
    exact ⟨this.1, this.2, fun h => by (cases h), .inr fin.2⟩
  · -- addresses
    rw [hq] at hp ⊢
    simp only at hp
    have fin : q.doRrtype = true ∧ ∃ qks, (Stage.filterRrtype, filterRrtypeIp q.rrtype qks) ∈ p.onSource := by
      unfold initRdataIp at hp
      obtain ⟨_, h1, hp⟩ := out_bind hp
      obtain ⟨_, h2, hp⟩ := out_bind hp
      obtain ⟨k, hk, hp⟩ := out_bind hp
      have hdo : q.doRrtype = true := by
        cases hdo : q.doRrtype with
        | true => rfl
        | false => rw [hdo] at h1; cases h1
      refine ⟨hdo, k.length, ?_⟩
      simp only at hp
      split at hp
      · obtain ⟨k2, -, hp⟩ := out_bind hp
        obtain ⟨k3, -, hp⟩ := out_bind hp
        cases hp
        exact List.mem_cons_self
      · cases hp
        exact List.mem_cons_self
    obtain ⟨hdo, qks, hmem⟩ := fin
    have hpass := hf _ hmem
    have hm : rrtypeMatch q.rrtype key = .ok true := by
      simp only [filterRrtypeIp, filterRrtype] at hpass
      rcases hx : rrtypeMatch q.rrtype key with (_ | _) | _ | _
      · exfalso
        rw [hx] at hpass
        exact ipSkip_ne_pass hpass
      · rfl
      · rw [hx] at hpass; cases hpass
      · rw [hx] at hpass; cases hpass
    exact ⟨fun _ => typed_of_match hm hd (hty hdo), fun h => by (rw [hdo] at h; cases h), fun h => by (cases h),
      rrtypeMatch_key hm⟩
  · -- raw data
    rw [hq] at hp ⊢
    simp only at hp
    unfold initRdataRaw at hp
    obtain ⟨d, -, hp⟩ := out_bind hp
    cases hp
    refine ⟨typed (fs := []) (by simpa using hf), fun _ h => by (cases h), fun h => by (cases h), ?_⟩
    rcases hV with ⟨-, hV⟩ | ⟨tb, k, h, -⟩
    · exact .inr (key_head hV hok)
    · cases h

end Verif
