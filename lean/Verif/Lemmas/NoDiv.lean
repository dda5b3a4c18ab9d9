import Verif.Lemmas.TwinOps
import Verif.Lemmas.Skip

/-!
# Functions without endless loops, filters that seek forward only
-/

namespace Verif
open Spec

/-- The outcome is not an endless loop. -/
def NoDiv {α : Type} (x : Out α) : Prop := x ≠ .fault .diverge

theorem NoDiv.ok {α : Type} (a : α) : NoDiv (.ok a) := by simp [NoDiv]
theorem NoDiv.fail {α : Type} : NoDiv (.fail : Out α) := by simp [NoDiv]
theorem NoDiv.oobRead {α : Type} : NoDiv (.fault .oobRead : Out α) := by simp [NoDiv]
theorem NoDiv.abort {α : Type} : NoDiv (.fault .abort : Out α) := by simp [NoDiv]

theorem NoDiv.bind {α β : Type} {x : Out α} {f : α → Out β} (hx : NoDiv x) (hf : ∀ a, NoDiv (f a)) :
    NoDiv (x >>= f) := by
  cases x with
  | ok a => exact hf a
  | fail => exact NoDiv.fail
  | fault e => intro h; exact hx (by simpa using h)

theorem NoDiv.orAbort {α : Type} {x : Out α} (hx : NoDiv x) : NoDiv x.orAbort := by
  cases x with
  | ok a => exact NoDiv.ok _
  | fail => exact NoDiv.abort
  | fault e => exact hx

theorem NoDiv.byteAt (b : Bytes) (i : Nat) : NoDiv (byteAt b i) := by
  unfold Verif.byteAt; split
  · exact NoDiv.ok _
  · exact NoDiv.oobRead

theorem NoDiv.assert (c : Bool) : NoDiv (Out.assert c) := by
  cases c
  · exact NoDiv.abort
  · exact NoDiv.ok _

theorem NoDiv.low7 (b : Bytes) (i : Nat) : NoDiv (low7 b i) := (NoDiv.byteAt b i).bind fun _ => NoDiv.ok _

theorem NoDiv.lengthPacked (n : Nat) (b : Bytes) : NoDiv (lengthPackedLoop n b) := by
  induction n generalizing b with
  | zero => exact NoDiv.ok _
  | succ n ih =>
    cases b with
    | nil => exact NoDiv.oobRead
    | cons b bs =>
      unfold lengthPackedLoop
      split
      · exact NoDiv.ok _
      · refine (ih bs).bind fun a => ?_
        cases a
        · exact NoDiv.ok _
        · exact NoDiv.ok _

theorem NoDiv.varintLengthPacked (b : Bytes) (n : Nat) : NoDiv (varintLengthPacked b n) :=
  (NoDiv.lengthPacked n b).bind fun a => by cases a <;> exact NoDiv.ok _

theorem NoDiv.varintDecode32 (b : Bytes) : NoDiv (varintDecode32 b) := by
  unfold Verif.varintDecode32
  refine (NoDiv.varintLengthPacked b 5).bind fun len => (NoDiv.low7 b 0).bind fun v0 => ?_
  split
  · refine (NoDiv.low7 b 1).bind fun v1 => ?_
    split
    · refine (NoDiv.low7 b 2).bind fun v1 => ?_
      split
      · refine (NoDiv.low7 b 3).bind fun v1 => ?_
        split
        · exact (NoDiv.byteAt b 4).bind fun v1 => NoDiv.ok _
        · exact NoDiv.ok _
      · exact NoDiv.ok _
    · exact NoDiv.ok _
  · exact NoDiv.ok _

theorem NoDiv.decode64Loop (b : Bytes) (k i v : Nat) : NoDiv (decode64Loop b k i v) := by
  induction k generalizing i v with
  | zero => exact NoDiv.ok _
  | succ k ih => exact (NoDiv.low7 b i).bind fun _ => ih _ _

theorem NoDiv.varintDecode64 (b : Bytes) : NoDiv (varintDecode64 b) := by
  unfold Verif.varintDecode64
  refine (NoDiv.varintLengthPacked b 10).bind fun len => ?_
  split
  · exact NoDiv.varintDecode32 b
  · exact (NoDiv.low7 b 0).bind fun _ => (NoDiv.low7 b 1).bind fun _ => (NoDiv.low7 b 2).bind fun _ =>
      (NoDiv.low7 b 3).bind fun _ => (NoDiv.decode64Loop _ _ _ _).bind fun _ => NoDiv.ok _

theorem NoDiv.tripletUnpack (b : Bytes) : NoDiv (tripletUnpack b) := by
  unfold Verif.tripletUnpack
  refine (NoDiv.varintDecode64 _).bind fun _ => (NoDiv.varintDecode64 _).bind fun _ =>
    (NoDiv.varintDecode64 _).bind fun _ => ?_
  simp only; split
  · exact NoDiv.ok _
  · exact NoDiv.fail

theorem NoDiv.pairUnpack (b : Bytes) : NoDiv (pairUnpack b) := by
  unfold Verif.pairUnpack
  refine (NoDiv.varintDecode64 _).bind fun _ => (NoDiv.varintDecode64 _).bind fun _ => ?_
  simp only; split
  · exact NoDiv.ok _
  · exact NoDiv.fail

theorem NoDiv.bmFlush (s : BmState) : NoDiv (bmFlush s) := by
  unfold Verif.bmFlush
  split
  · split
    · exact NoDiv.ok _
    · exact NoDiv.abort
  · exact NoDiv.ok _

theorem NoDiv.bmStep (s : BmState) (t : Nat) : NoDiv (bmStep s t) := by
  unfold Verif.bmStep
  simp only
  split
  · exact (NoDiv.bmFlush s).bind fun _ => NoDiv.ok _
  · exact NoDiv.ok _

theorem NoDiv.bmLoop (s : BmState) (ts : List Nat) : NoDiv (bmLoop s ts) := by
  induction ts generalizing s with
  | nil => exact NoDiv.ok _
  | cons t ts ih => exact (NoDiv.bmStep s t).bind fun _ => ih _

theorem NoDiv.mergeBitmaps (a b : Bytes) : NoDiv (mergeBitmaps a b) := by
  have ho : ∀ o : Option (List Nat), NoDiv (Out.ofOption o) := by
    intro o; cases o
    · exact NoDiv.fail
    · exact NoDiv.ok _
  unfold Verif.mergeBitmaps
  split
  · exact NoDiv.ok _
  · split
    · exact NoDiv.ok _
    · have hw : ∀ ts, NoDiv (bmWrite ts) := fun ts =>
        (NoDiv.bmLoop _ _).bind fun _ => (NoDiv.bmFlush _).bind fun _ => NoDiv.ok _
      simp only
      split
      · exact hw _
      · exact hw _
      · exact (ho _).bind fun _ => (ho _).bind fun _ => hw _

theorem NoDiv.mergeVersion (t : UInt8) (a b : Bytes) : NoDiv (mergeVersion t a b) := by
  unfold Verif.mergeVersion
  split
  · exact NoDiv.ok _
  · split
    · exact (NoDiv.varintDecode32 _).bind fun _ => (NoDiv.assert _).bind fun _ =>
        (NoDiv.varintDecode32 _).bind fun _ => (NoDiv.assert _).bind fun _ => NoDiv.ok _
    · exact NoDiv.ok _

theorem NoDiv.mergeTimeRange (a b : Bytes) : NoDiv (mergeTimeRange a b) := by
  unfold Verif.mergeTimeRange
  split
  · exact NoDiv.ok _
  · exact ((NoDiv.pairUnpack _).orAbort).bind fun _ => ((NoDiv.pairUnpack _).orAbort).bind fun _ => NoDiv.ok _

theorem mergeFunc_ok : MergeOk mergeFunc := by
  intro k a b
  show NoDiv (mergeFunc k a b)
  unfold mergeFunc
  split
  · exact NoDiv.ok _
  · split
    · exact (NoDiv.assert _).bind fun _ => ((NoDiv.tripletUnpack _).orAbort).bind fun _ =>
        ((NoDiv.tripletUnpack _).orAbort).bind fun _ => NoDiv.ok _
    · split
      · exact NoDiv.mergeBitmaps _ _
      · split
        · exact NoDiv.mergeTimeRange _ _
        · split
          · split
            · exact NoDiv.mergeVersion _ _ _
            · exact NoDiv.ok _
          · exact NoDiv.ok _

theorem NoDiv.unionCheckBlocks (want byte bit : Nat) (m : Bytes) : NoDiv (unionCheckBlocks want byte bit m) := by
  fun_induction Verif.unionCheckBlocks want byte bit m with
  | case1 => exact NoDiv.ok _
  | case2 => exact NoDiv.ok _
  | case3 => exact NoDiv.ok _
  | case4 _ _ _ _ _ ih => exact ih
  | case5 => exact NoDiv.ok _
  | case6 => exact (NoDiv.byteAt _ _).bind fun _ => NoDiv.ok _

theorem NoDiv.rrtypeTest (e t : Nat) (m : Bytes) : NoDiv (rrtypeTest e t m) := by
  unfold Verif.rrtypeTest
  split
  · exact NoDiv.ok _
  · split
    · exact NoDiv.ok _
    · unfold unionCheck
      split
      · exact NoDiv.ok _
      · exact NoDiv.ok _
      · exact NoDiv.ok _
      · exact NoDiv.unionCheckBlocks _ _ _ _

theorem NoDiv.reverseName (b : Bytes) : NoDiv (reverseName b) := by
  unfold Verif.reverseName
  split
  · exact NoDiv.ok _
  · exact NoDiv.fail

theorem NoDiv.addRrtype (k : Bytes) (t : Nat) : NoDiv (addRrtype k t) := by
  unfold Verif.addRrtype
  split
  · exact NoDiv.abort
  · exact NoDiv.ok _

theorem NoDiv.indirectKey (q : Query) (tb : UInt8) (kv : KV) : NoDiv (indirectKey q tb kv) := by
  have ht : ∀ k, NoDiv (indirectType q tb k) := by
    intro k
    unfold indirectType
    split
    · exact NoDiv.addRrtype _ _
    · split
      · exact NoDiv.addRrtype _ _
      · exact NoDiv.ok _
  have h1 : NoDiv ((Verif.reverseName (kv.1.drop 1)).bind fun rev => (indirectType q tb (tb :: rev)).bind fun k =>
      .ok (some k)) := (NoDiv.reverseName _).bind fun _ => (ht _).bind fun _ => NoDiv.ok _
  unfold Verif.indirectKey
  simp only
  split
  · refine (NoDiv.rrtypeTest _ _ _).bind fun b => ?_
    simp only [Out.ok_bind]
    split
    · exact NoDiv.ok _
    · exact h1
  · exact h1

theorem NoDiv.rrtypePosRdata (k : Bytes) : NoDiv (rrtypePosRdata k) := by
  unfold Verif.rrtypePosRdata
  split
  · exact NoDiv.ok _
  · refine (NoDiv.byteAt _ _).bind fun _ => (NoDiv.byteAt _ _).bind fun _ => ?_
    simp only
    split <;> exact NoDiv.ok _

theorem NoDiv.rrtypeMatch (t : Nat) (k : Bytes) : NoDiv (rrtypeMatch t k) := by
  unfold Verif.rrtypeMatch
  have h : ∀ p : Option Nat, NoDiv (match p with
      | none => (.ok false : Out Bool)
      | some p => (do
        let (n, rrtype) ← Verif.varintDecode32 (k.drop p)
        if n = 0 then .ok false else .ok (rrtype == t))) := by
    intro p
    cases p with
    | none => exact NoDiv.ok _
    | some p =>
      refine (NoDiv.varintDecode32 _).bind fun a => ?_
      simp only; split <;> exact NoDiv.ok _
  refine (NoDiv.byteAt _ _).bind fun _ => ?_
  simp only
  split
  · exact h _
  · split
    · exact (NoDiv.rrtypePosRdata _).bind fun p => h p
    · exact NoDiv.abort

theorem NoDiv.rdataNameMatch (k : Bytes) : NoDiv (rdataNameMatch k) := by
  unfold Verif.rdataNameMatch
  refine (NoDiv.rrtypePosRdata _).bind fun p => ?_
  cases p with
  | none => exact NoDiv.ok _
  | some p => exact (NoDiv.varintDecode32 _).bind fun a => NoDiv.ok _

theorem NoDiv.bailiwickMatch (b k : Bytes) : NoDiv (bailiwickMatch b k) := by
  unfold Verif.bailiwickMatch
  cases rrtypePosRrset k with
  | none => exact NoDiv.ok _
  | some p =>
    refine (NoDiv.varintDecode32 _).bind fun a => ?_
    simp only
    split
    · exact NoDiv.ok _
    · split <;> exact NoDiv.ok _

theorem NoDiv.timeMatch (b : Bounds) (p : Bool) (v : Bytes) : NoDiv (timeMatch b p v) := by
  unfold Verif.timeMatch
  have h := NoDiv.tripletUnpack v
  split
  · rename_i heq; rw [heq] at h; intro h2; exact h (by simpa using h2)
  · exact NoDiv.ok _
  · repeat' split
    all_goals exact NoDiv.ok _

/-! ## Filters -/

theorem okF_verdictOf {sk : Bool} {P : Bytes → Prop} {f : KV → Out Bool} (h : ∀ kv, NoDiv (f kv)) :
    OkF sk P (pureF fun kv => verdictOf (f kv)) where
  still v _ := Still.refl v
  nodiv v kv _ := by
    simp only [pureF]
    have := h kv
    cases hf : f kv with
    | ok b => cases b <;> simp [verdictOf]
    | fail => simp [verdictOf]
    | fault e => rw [hf] at this; intro h2; cases h2; exact this rfl
  fwd v kv k _ h2 := by
    simp only [pureF] at h2
    cases hf : f kv with
    | ok b => rw [hf] at h2; cases b <;> simp [verdictOf] at h2
    | fail => rw [hf] at h2; simp [verdictOf] at h2
    | fault e => rw [hf] at h2; simp [verdictOf] at h2
  steady _ _ _ h := ⟨rfl, h⟩

theorem okF_rrtype {sk : Bool} {P : Bytes → Prop} (t : Nat) : OkF sk P (pureF (filterRrtype t)) :=
  okF_verdictOf fun _ => NoDiv.rrtypeMatch _ _

theorem okF_rdataName {sk : Bool} {P : Bytes → Prop} : OkF sk P (pureF filterRrtypeRdataName) :=
  okF_verdictOf fun _ => NoDiv.rdataNameMatch _

theorem okF_bailiwick {sk : Bool} {P : Bytes → Prop} (b : Bytes) : OkF sk P (pureF (filterBailiwick b)) :=
  okF_verdictOf fun _ => NoDiv.bailiwickMatch _ _

theorem okF_time {sk : Bool} {P : Bytes → Prop} (b : Bounds) (p : Bool) : OkF sk P (pureF (filterTime b p)) :=
  okF_verdictOf fun _ => NoDiv.timeMatch _ _ _

theorem okF_offset {sk : Bool} {P : Bytes → Prop} : OkF sk P filterOffset where
  still v _ := by unfold filterOffset; split <;> exact ⟨rfl, rfl, rfl, rfl⟩
  nodiv v kv _ := by unfold filterOffset; split <;> simp
  fwd v kv k _ h := by unfold filterOffset at h; split at h <;> simp at h
  steady v v' kv h := by
    unfold filterOffset
    by_cases hv : v.offset > 0
    · rw [if_pos hv, if_pos (h ▸ hv)]; simp [h]
    · rw [if_neg hv, if_neg (h ▸ hv)]; simp [h]

/-- A successful increment of a piece of the key goes beyond the key. -/
theorem increment_gt {seek key k : Bytes} {pos : Nat} (h : incrementKey seek pos = .ok (true, k))
    (hp : seek.take (pos + 1) <+: key) : lexLt key k = true := by
  unfold incrementKey at h
  split at h
  · simp only [Out.ok.injEq, Prod.mk.injEq] at h
    obtain ⟨h1, rfl⟩ := h
    obtain ⟨p, b, n, h2, h3, hb⟩ := incRev_shape h1
    rw [List.reverse_reverse] at h2
    obtain ⟨s, rfl⟩ := hp
    rw [h3, h2]
    exact shape_lt hb _ _
  · cases h

theorem singleLabelSeek_fwd {t : UInt8} {key k : Bytes} {n : Nat} (ht : t ≠ 255) (hk : key.head? = some t)
    (hn : 0 < n) (hle : n ≤ key.length) (h : singleLabelSeek key n = .seekTo k) : lexLt key k = true := by
  unfold singleLabelSeek at h
  split at h
  · rename_i ok k' heq
    cases h
    have hok : ok = true := by
      unfold incrementKey at heq
      split at heq
      · simp only [Out.ok.injEq, Prod.mk.injEq] at heq
        rw [← heq.1]
        cases key with
        | nil => simp at hk
        | cons a as =>
          simp only [List.head?_cons, Option.some.injEq] at hk
          subst hk
          have : ((a :: as).take n).take (n - 1 + 1) = a :: as.take (n - 1) := by
            rw [show n - 1 + 1 = n by omega, List.take_take, Nat.min_self]
            cases n with
            | zero => omega
            | succ n => simp
          rw [this]
          exact incRev_ok_cons _ ht _
      · cases heq
    subst hok
    refine increment_gt heq ?_
    rw [List.take_take]
    exact List.take_prefix _ _
  · cases h
  · cases h

theorem singleLabelSeek_nodiv (key : Bytes) (n : Nat) : singleLabelSeek key n ≠ .fault .diverge := by
  unfold singleLabelSeek
  split
  · simp
  · simp
  · rename_i heq
    unfold incrementKey at heq
    split at heq
    · cases heq
    · cases heq; simp

theorem okF_singleLabel {P : Bytes → Prop} {t : UInt8} (ht : t ≠ 255) (hP : ∀ x, P x → x.head? = some t)
    (qks : Nat) : OkF true P (pureF (filterSingleLabel qks)) where
  still v _ := Still.refl v
  nodiv v kv _ := by
    simp only [pureF]
    unfold filterSingleLabel
    simp only
    split
    · simp
    · split
      · split
        · exact singleLabelSeek_nodiv _ _
        · split
          · simp
          · split
            · split
              · simp
              · exact singleLabelSeek_nodiv _ _
            · simp
            · rename_i heq
              intro h; cases h
              exact NoDiv.byteAt _ _ heq
      · simp
      · rename_i heq
        intro h; cases h
        exact NoDiv.byteAt _ _ heq
  fwd v kv k hp h := by
    refine ⟨rfl, ?_⟩
    simp only [pureF] at h
    unfold filterSingleLabel at h
    simp only at h
    split at h
    · cases h
    · rename_i hl
      split at h
      · split at h
        · exact singleLabelSeek_fwd ht (hP _ hp) (by omega) (by omega) h
        · split at h
          · cases h
          · rename_i hl2
            split at h
            · split at h
              · cases h
              · exact singleLabelSeek_fwd ht (hP _ hp) (by omega) (by omega) h
            · cases h
            · cases h
      · cases h
      · cases h
  steady _ _ _ h := ⟨rfl, h⟩

/-! ## The address filter -/

theorem ipIncrement_fwd {seek key k : Bytes} {pos : Nat} (hp : seek.take (pos + 1) <+: key)
    (h : ipIncrement seek pos = .seekTo k) : lexLt key k = true := by
  unfold ipIncrement at h
  split at h
  · rename_i heq
    split at h
    · cases h; exact increment_gt heq hp
    · cases h
  · cases h
  · cases h
  · cases h

theorem ipIncrement_nodiv (seek : Bytes) (pos : Nat) : ipIncrement seek pos ≠ .fault .diverge := by
  unfold ipIncrement
  split
  · split <;> simp
  · simp
  · simp
  · rename_i heq
    unfold incrementKey at heq
    split at heq
    · cases heq
    · cases heq; simp

theorem take_prefix_of_prefix {a b : Bytes} (h : a <+: b) (n : Nat) : a.take n <+: b :=
  (List.take_prefix _ _).trans h

theorem prefix_concat_byteAt {seek key : Bytes} {b : UInt8} (h : seek <+: key)
    (hb : byteAt key seek.length = .ok b) : seek ++ [b] <+: key := by
  obtain ⟨s, rfl⟩ := h
  cases s with
  | nil => simp [byteAt] at hb
  | cons x s =>
    rw [byteAt_append] at hb
    cases hb
    exact ⟨s, by simp⟩

theorem ipWalk_ok {rrtype : Nat} {key : Bytes} {n : Nat} {seek : Bytes} (hp : seek <+: key)
    (hn : key.length - seek.length < n) :
    ipWalk rrtype key n seek ≠ .fault .diverge ∧
    ∀ k, ipWalk rrtype key n seek = .seekTo k → lexLt key k = true := by
  induction n generalizing seek with
  | zero => omega
  | succ n ih =>
    unfold ipWalk
    have hnd := NoDiv.byteAt key seek.length
    cases hb : byteAt key seek.length with
    | fault f => rw [hb] at hnd; exact ⟨by intro h; cases h; exact hnd rfl, by intro k h; cases h⟩
    | fail => exact ⟨by simp, by intro k h; cases h⟩
    | ok llen =>
      have hpre := prefix_concat_byteAt hp hb
      have hlen := hpre.length_le
      simp only [List.length_append, List.length_singleton] at hlen
      simp only
      split
      · exact ⟨ipIncrement_nodiv _ _, fun k h => ipIncrement_fwd (take_prefix_of_prefix hp _) h⟩
      · split
        · have hrd : ipRdlen rrtype ≠ .fault .diverge := by
            unfold ipRdlen; split
            · simp
            · split <;> simp
          cases hr : ipRdlen rrtype with
          | fault f => rw [hr] at hrd; exact ⟨by intro h; cases h; exact hrd rfl, by intro k h; cases h⟩
          | fail => exact ⟨by simp, by intro k h; cases h⟩
          | ok rd =>
            simp only
            split
            · rename_i hc
              exact ⟨by simp, fun k h => by cases h; exact bytesCompare_gt.1 hc⟩
            · exact ⟨ipIncrement_nodiv _ _, fun k h => ipIncrement_fwd (take_prefix_of_prefix hpre _) h⟩
        · split
          · rename_i hgt
            refine ⟨by simp, fun k h => ?_⟩
            cases h
            obtain ⟨s, rfl⟩ := hp
            rw [List.drop_left, List.append_assoc, ← List.append_assoc]
            refine lexLt_append_right_pos ?_
            simp only [ne_eq, List.replicate_eq_nil_iff]
            omega
          · rename_i h63 h0 hle
            have hpre2 : seek ++ [llen] ++ (key.drop (seek.length + 1)).take llen.toNat <+: key := by
              obtain ⟨s, rfl⟩ := hpre
              have : (seek ++ [llen] ++ s).drop (seek.length + 1) = s := by
                rw [show seek.length + 1 = (seek ++ [llen]).length by simp, List.drop_left]
              rw [this]
              exact (List.prefix_append_right_inj _).2 (List.take_prefix _ _)
            refine ih hpre2 ?_
            simp only [List.length_append, List.length_singleton, List.length_take, List.length_drop]
            omega

theorem ipSkip_ok {rrtype qks : Nat} {key : Bytes} (hpre : 0 < qks - varintLength rrtype) :
    ipSkip rrtype qks key ≠ .fault .diverge ∧
    ∀ k, ipSkip rrtype qks key = .seekTo k → lexLt key k = true := by
  unfold ipSkip
  simp only
  generalize hq : qks - varintLength rrtype = pre at hpre
  split
  · rename_i hlt
    unfold addRrtype
    split
    · rename_i heq
      split at heq
      · cases heq
      · cases heq
        refine ⟨by simp, fun k h => ?_⟩
        cases h
        rw [List.append_assoc]
        refine lexLt_append_right_pos ?_
        simp only [ne_eq, List.append_eq_nil_iff, List.replicate_eq_nil_iff]
        omega
    · rename_i heq; exact ⟨by simp, by intro k h; cases h⟩
    · rename_i heq
      split at heq
      · cases heq; exact ⟨by simp, by intro k h; cases h⟩
      · cases heq
  · rename_i hge
    have hge : pre ≤ key.length := by omega
    unfold addRrtype
    split
    · exact ⟨by simp, by intro k h; cases h⟩
    · rename_i heq
      split at heq
      · cases heq; exact ⟨by simp, by intro k h; cases h⟩
      · cases heq
    · rename_i seek heq
      split at heq
      · cases heq
      · have hseek : seek = key.take pre ++ varintEncode32 rrtype := by cases heq; rfl
        have hlp : (key.take pre).length = pre := by rw [List.length_take]; omega
        have htk : seek.take pre = key.take pre := by
          rw [hseek]
          exact List.take_left' hlp
        have hpp : seek.take (pre - 1 + 1) <+: key := by
          rw [show pre - 1 + 1 = pre by omega, htk]; exact List.take_prefix _ _
        unfold bytesCompareN
        simp only [gt_iff_lt, Nat.lt_irrefl, if_false]
        unfold memcmpN
        by_cases hl : seek.length ≤ key.length
        · rw [if_pos ⟨Nat.le_refl _, hl⟩]
          simp only [Out.ok_bind, if_true]
          have hfull : (key.take seek.length).length = seek.length := by rw [List.length_take]; omega
          have hcmp : bytesCompare seek (key.take seek.length) = cmpBytes (seek.take seek.length) (key.take seek.length) := by
            unfold bytesCompare
            simp only [hfull, gt_iff_lt, Nat.lt_irrefl, if_false]
            rw [List.take_take, Nat.min_self]
            cases cmpBytes (List.take seek.length seek) (List.take seek.length key) <;> simp
          cases hc : cmpBytes (seek.take seek.length) (key.take seek.length) with
          | lt =>
            simp only [reduceCtorEq, if_false]
            exact ⟨ipIncrement_nodiv _ _, fun k h => ipIncrement_fwd hpp h⟩
          | gt =>
            simp only [reduceCtorEq, if_false]
            refine ⟨by simp, fun k h => ?_⟩
            cases h
            rw [hc] at hcmp
            have h1 := bytesCompare_gt.1 hcmp
            have h2 := lexLt_append_of_length_eq hfull h1 (key.drop seek.length) []
            rwa [List.take_append_drop, List.append_nil] at h2
          | eq =>
            rw [hc] at hcmp
            have hpk : seek <+: key := by
              rw [bytesCompare_eq.1 hcmp]; exact List.take_prefix _ _
            simp only [if_true]
            split
            · exact ⟨by simp, by intro k h; cases h⟩
            · have hnd := NoDiv.byteAt key seek.length
              cases hb : byteAt key seek.length with
              | fail => exact ⟨by simp, by intro k h; cases h⟩
              | fault f => rw [hb] at hnd; exact ⟨by intro h; cases h; exact hnd rfl, by intro k h; cases h⟩
              | ok b =>
                simp only
                split
                · refine ⟨ipIncrement_nodiv _ _, fun k h => ipIncrement_fwd ?_ h⟩
                  rw [List.take_take]
                  exact take_prefix_of_prefix hpk _
                · exact ipWalk_ok hpk (by omega)
        · rw [if_neg (by omega)]
          exact ⟨by simp, by intro k h; cases h⟩

theorem filterRrtype_noseek (t : Nat) (kv : KV) : filterRrtype t kv ≠ .fault .diverge ∧
    ∀ k, filterRrtype t kv ≠ .seekTo k := by
  have h : OkF true (fun _ => True) (pureF (filterRrtype t)) := okF_rrtype t
  have h' : OkF false (fun _ => True) (pureF (filterRrtype t)) := okF_rrtype t
  refine ⟨h.nodiv ⟨fun _ => ⟨0, 0⟩, 0, ⟨0, 0⟩, false, 0, fun _ => ⟨0, 0, 0⟩⟩ kv trivial, fun k hk => ?_⟩
  have := (h'.fwd ⟨fun _ => ⟨0, 0⟩, 0, ⟨0, 0⟩, false, 0, fun _ => ⟨0, 0, 0⟩⟩ kv k trivial hk).1
  cases this

theorem okF_rrtypeIp {P : Bytes → Prop} {rrtype qks : Nat} (hpre : 0 < qks - varintLength rrtype) :
    OkF true P (pureF (filterRrtypeIp rrtype qks)) where
  still v _ := Still.refl v
  nodiv v kv _ := by
    simp only [pureF]
    unfold filterRrtypeIp
    have := filterRrtype_noseek rrtype kv
    split
    · exact (ipSkip_ok hpre).1
    · exact this.1
  fwd v kv k _ h := by
    refine ⟨rfl, ?_⟩
    simp only [pureF] at h
    unfold filterRrtypeIp at h
    have := filterRrtype_noseek rrtype kv
    split at h
    · exact (ipSkip_ok hpre).2 k h
    · exact absurd h (this.2 k)
  steady _ _ _ h := ⟨rfl, h⟩

end Verif
