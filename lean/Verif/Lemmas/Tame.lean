import Verif.Spec.Lifetimes

/-!
# Functions that do not fail because of the heap

Decoding, query construction and setters, taken without their allocations, give no faults of the heap.
-/

namespace Verif
open Spec

/-- The outcome is not a wrong use of the heap. -/
def Tame {α : Type} (x : Out α) : Prop := x ≠ .fault .badFree ∧ x ≠ .fault .useAfterFree

theorem Tame.ok {α : Type} (a : α) : Tame (.ok a) := by simp [Tame]
theorem Tame.fail {α : Type} : Tame (.fail : Out α) := by simp [Tame]
theorem Tame.oobRead {α : Type} : Tame (.fault .oobRead : Out α) := by simp [Tame]
theorem Tame.oobWrite {α : Type} : Tame (.fault .oobWrite : Out α) := by simp [Tame]
theorem Tame.abort {α : Type} : Tame (.fault .abort : Out α) := by simp [Tame]
theorem Tame.diverge {α : Type} : Tame (.fault .diverge : Out α) := by simp [Tame]
theorem Tame.nullDeref {α : Type} : Tame (.fault .nullDeref : Out α) := by simp [Tame]
theorem Tame.badShift {α : Type} : Tame (.fault .badShift : Out α) := by simp [Tame]

theorem Tame.bind {α β : Type} {x : Out α} {f : α → Out β} (hx : Tame x) (hf : ∀ a, Tame (f a)) :
    Tame (x >>= f) := by
  cases x with
  | ok a => exact hf a
  | fail => exact Tame.fail
  | fault e => exact ⟨fun h => hx.1 (by simpa using h), fun h => hx.2 (by simpa using h)⟩

theorem Tame.orAbort {α : Type} {x : Out α} (hx : Tame x) : Tame x.orAbort := by
  cases x with
  | ok a => exact Tame.ok _
  | fail => exact Tame.abort
  | fault e => exact hx

theorem Tame.byteAt (b : Bytes) (i : Nat) : Tame (byteAt b i) := by
  unfold Verif.byteAt; split
  · exact Tame.ok _
  · exact Tame.oobRead

theorem Tame.assert (c : Bool) : Tame (Out.assert c) := by
  cases c
  · exact Tame.abort
  · exact Tame.ok _

theorem Tame.low7 (b : Bytes) (i : Nat) : Tame (low7 b i) := (Tame.byteAt b i).bind fun _ => Tame.ok _

theorem Tame.lengthPacked (n : Nat) (b : Bytes) : Tame (lengthPackedLoop n b) := by
  induction n generalizing b with
  | zero => exact Tame.ok _
  | succ n ih =>
    cases b with
    | nil => exact Tame.oobRead
    | cons b bs =>
      unfold lengthPackedLoop
      split
      · exact Tame.ok _
      · refine (ih bs).bind fun a => ?_
        cases a
        · exact Tame.ok _
        · exact Tame.ok _

theorem Tame.varintLengthPacked (b : Bytes) (n : Nat) : Tame (varintLengthPacked b n) :=
  (Tame.lengthPacked n b).bind fun a => by cases a <;> exact Tame.ok _

theorem Tame.varintDecode32 (b : Bytes) : Tame (varintDecode32 b) := by
  unfold Verif.varintDecode32
  refine (Tame.varintLengthPacked b 5).bind fun len => (Tame.low7 b 0).bind fun v0 => ?_
  split
  · refine (Tame.low7 b 1).bind fun v1 => ?_
    split
    · refine (Tame.low7 b 2).bind fun v1 => ?_
      split
      · refine (Tame.low7 b 3).bind fun v1 => ?_
        split
        · exact (Tame.byteAt b 4).bind fun v1 => Tame.ok _
        · exact Tame.ok _
      · exact Tame.ok _
    · exact Tame.ok _
  · exact Tame.ok _

theorem Tame.decode64Loop (b : Bytes) (k i v : Nat) : Tame (decode64Loop b k i v) := by
  induction k generalizing i v with
  | zero => exact Tame.ok _
  | succ k ih => exact (Tame.low7 b i).bind fun _ => ih _ _

theorem Tame.varintDecode64 (b : Bytes) : Tame (varintDecode64 b) := by
  unfold Verif.varintDecode64
  refine (Tame.varintLengthPacked b 10).bind fun len => ?_
  split
  · exact Tame.varintDecode32 b
  · exact (Tame.low7 b 0).bind fun _ => (Tame.low7 b 1).bind fun _ => (Tame.low7 b 2).bind fun _ =>
      (Tame.low7 b 3).bind fun _ => (Tame.decode64Loop _ _ _ _).bind fun _ => Tame.ok _

theorem Tame.tripletUnpack (b : Bytes) : Tame (tripletUnpack b) := by
  unfold Verif.tripletUnpack
  refine (Tame.varintDecode64 _).bind fun _ => (Tame.varintDecode64 _).bind fun _ =>
    (Tame.varintDecode64 _).bind fun _ => ?_
  simp only; split
  · exact Tame.ok _
  · exact Tame.fail

theorem Tame.pairUnpack (b : Bytes) : Tame (pairUnpack b) := by
  unfold Verif.pairUnpack
  refine (Tame.varintDecode64 _).bind fun _ => (Tame.varintDecode64 _).bind fun _ => ?_
  simp only; split
  · exact Tame.ok _
  · exact Tame.fail

theorem Tame.reverseName (b : Bytes) : Tame (reverseName b) := by
  unfold Verif.reverseName
  split
  · exact Tame.ok _
  · exact Tame.fail

theorem Tame.lenUname (b : Bytes) : Tame (lenUname b) := by
  unfold Verif.lenUname
  split
  · exact Tame.ok _
  · exact Tame.fail

theorem Tame.decodeName (p : Bytes) : Tame (decodeName p) := by
  unfold Verif.decodeName
  refine (Tame.lenUname _).bind fun _ => (Tame.reverseName _).bind fun _ => ?_
  split
  · exact Tame.oobWrite
  · exact Tame.ok _

theorem Tame.decodeRdatas (p : Bytes) : Tame (decodeRdatas p) := by
  fun_induction Verif.decodeRdatas p with
  | case1 => exact Tame.ok _
  | case2 p hp f h => have := Tame.varintDecode32 p; rw [h] at this; exact ⟨by simpa [Tame] using this.1, by simpa [Tame] using this.2⟩
  | case3 => exact Tame.fail
  | case4 => exact Tame.fail
  | case5 => exact Tame.fail
  | case6 => exact Tame.diverge
  | case7 _ _ _ _ _ _ _ _ f h ih => rw [h] at ih; exact ⟨by simpa [Tame] using ih.1, by simpa [Tame] using ih.2⟩
  | case8 => exact Tame.fail
  | case9 => exact Tame.ok _

theorem Tame.decodeValTriplet (e : Entry) (v : Bytes) : Tame (decodeValTriplet e v) := by
  unfold Verif.decodeValTriplet
  exact (Tame.tripletUnpack _).bind fun _ => Tame.ok _

theorem Tame.decodeRrset (e : Entry) (b : Bytes) : Tame (decodeRrset e b) := by
  unfold Verif.decodeRrset
  exact (Tame.decodeName _).bind fun _ => (Tame.varintDecode32 _).bind fun _ => (Tame.decodeName _).bind fun _ =>
    (Tame.decodeRdatas _).bind fun _ => Tame.ok _

theorem Tame.decodeRdataNameRev (e : Entry) (b v : Bytes) : Tame (decodeRdataNameRev e b v) := by
  unfold Verif.decodeRdataNameRev
  exact (Tame.reverseName _).bind fun _ => Tame.ok _

theorem Tame.decodeRdata (e : Entry) (b : Bytes) : Tame (decodeRdata e b) := by
  unfold Verif.decodeRdata
  split
  · exact Tame.fail
  · refine (Tame.byteAt _ _).bind fun _ => (Tame.byteAt _ _).bind fun _ => ?_
    simp only
    split
    · exact Tame.fail
    · refine (Tame.varintDecode32 _).bind fun _ => ?_
      split
      · exact Tame.fail
      · exact (Tame.decodeName _).bind fun _ => Tame.ok _

theorem Tame.decodeVersion (e : Entry) (b v : Bytes) : Tame (decodeVersion e b v) := by
  unfold Verif.decodeVersion
  split
  · split
    · exact Tame.fail
    · refine (Tame.varintDecode32 _).bind fun _ => ?_
      simp only
      split
      · exact Tame.ok _
      · exact Tame.fail
  · exact Tame.fail

theorem Tame.entryDecode (k v : Bytes) : Tame (entryDecode k v) := by
  unfold Verif.entryDecode
  split
  · exact Tame.fail
  · dsimp only
    repeat' split
    · exact (Tame.decodeRrset _ _).bind fun _ => Tame.decodeValTriplet _ _
    · exact Tame.ok _
    · exact (Tame.decodeRdata _ _).bind fun _ => Tame.decodeValTriplet _ _
    · exact Tame.decodeRdataNameRev _ _ _
    · unfold decodeTimeRange
      exact (Tame.pairUnpack _).bind fun _ => Tame.ok _
    · exact Tame.ok _
    · exact Tame.decodeVersion _ _ _
    · exact Tame.ok _

/-! ## Queries -/

theorem Tame.addRrtype (k : Bytes) (t : Nat) : Tame (addRrtype k t) := by
  unfold Verif.addRrtype
  split
  · exact Tame.abort
  · exact Tame.ok _

theorem Tame.leftWildcardKey (b : UInt8) (n : Bytes) : Tame (leftWildcardKey b n) := by
  unfold Verif.leftWildcardKey
  refine (Tame.reverseName _).bind fun _ => ?_
  split
  · exact Tame.oobWrite
  · exact Tame.ok _

theorem Tame.incrementKey (k : Bytes) (i : Nat) : Tame (incrementKey k i) := by
  unfold Verif.incrementKey
  split
  · exact Tame.ok _
  · exact Tame.abort

theorem Tame.initKind (q : Query) : Tame (initKind q) := by
  unfold Verif.initKind
  split
  · unfold initRrset
    split
    · exact (Tame.leftWildcardKey _ _).bind fun _ => Tame.ok _
    · split
      · exact Tame.ok _
      · refine (Tame.reverseName _).bind fun _ => ?_
        split
        · exact Tame.oobWrite
        · split
          · exact (Tame.addRrtype _ _).bind fun _ => Tame.ok _
          · exact Tame.ok _
  · unfold initRdataName
    split
    · exact Tame.ok _
    · split
      · exact (Tame.leftWildcardKey _ _).bind fun _ => Tame.ok _
      · unfold initRdataExact
        dsimp only
        split
        · exact (Tame.addRrtype _ _).bind fun _ => Tame.ok _
        · exact Tame.ok _
  · refine (Tame.assert _).bind fun _ => (Tame.assert _).bind fun _ => (Tame.addRrtype _ _).bind fun _ => ?_
    dsimp only
    split
    · exact (Tame.addRrtype _ _).bind fun _ => (Tame.incrementKey _ _).bind fun _ => Tame.ok _
    · exact Tame.ok _
  · refine Tame.bind ?_ fun _ => Tame.ok _
    unfold rdataBytes
    split
    · split
      · exact Tame.ok _
      · exact Tame.oobRead
    · split
      · exact Tame.ok _
      · exact Tame.nullDeref
  all_goals exact Tame.ok _

/-! ## Setters -/

theorem realShifts_strict : RealShifts strictArith := by
  constructor
  · intro v s
    by_cases h : s ≥ 32 ∨ v * 2 ^ s ≥ 2 ^ 31
    · exact .inl (if_pos h)
    · exact .inr ⟨_, if_neg h⟩
  · intro v s
    by_cases h : s ≥ 64
    · exact .inl (if_pos h)
    · exact .inr ⟨_, if_neg h⟩

theorem realShifts_x86 : RealShifts x86Arith := ⟨fun _ _ => .inr ⟨_, rfl⟩, fun _ _ => .inr ⟨_, rfl⟩⟩

/-- A result, or an undefined shift. -/
def Shifts {α : Type} (x : Out α) : Prop := x = .fault .badShift ∨ ∃ a, x = .ok a

theorem Shifts.ok {α : Type} (a : α) : Shifts (.ok a) := .inr ⟨a, rfl⟩

theorem Shifts.bind {α β : Type} {x : Out α} {f : α → Out β} (hx : Shifts x) (hf : ∀ a, Shifts (f a)) :
    Shifts (x >>= f) := by
  rcases hx with rfl | ⟨a, rfl⟩
  · exact .inl rfl
  · exact hf a

theorem Shifts.setDataPrefix {A : Arith} (hA : RealShifts A) (L : Libs) (q : Query) (d : Bytes) :
    Shifts (setDataPrefix A L q d) := by
  have hn : ∀ p, Shifts (net64 A p) := fun p => Shifts.bind (hA.2 _ _) fun _ => hA.2 _ _
  have h4 : ∀ p, Shifts (ip4Host A p) := fun p => Shifts.bind (hA.1 _ _) fun _ => .ok _
  have h6 : ∀ p, Shifts (ip6Net A p) := by
    intro p
    unfold ip6Net
    repeat' split
    · exact (hn _).bind fun _ => .ok _
    · exact (hn _).bind fun _ => .ok _
    · exact .ok _
  have h7 : ∀ p, Shifts (ip6Host A p) := by
    intro p
    unfold ip6Host
    repeat' split
    · exact (hn _).bind fun _ => .ok _
    · exact (hn _).bind fun _ => .ok _
    · exact .ok _
  unfold Verif.setDataPrefix
  repeat' (first | exact Shifts.ok _ | split)
  · exact ((h4 _).bind fun _ => .ok _).bind fun _ => ((h4 _).bind fun _ => .ok _).bind fun _ => .ok _
  · exact ((h6 _).bind fun _ => .ok _).bind fun _ => ((h7 _).bind fun _ => .ok _).bind fun _ => .ok _

theorem Shifts.applySetter {A : Arith} (hA : RealShifts A) (L : Libs) (q : Query) (s : Setter) :
    Shifts (applySetter A L q s) := by
  unfold Verif.applySetter
  cases s with
  | data d =>
    show Shifts (setData A L q d)
    unfold setData
    split
    · exact .ok _
    · exact .ok _
    · unfold setDataIp
      repeat' split
      · exact .ok _
      · exact .ok _
      · exact Shifts.setDataPrefix hA L q _
      · exact .ok _
    · exact .ok _
    · exact .ok _
    · exact .ok _
  | _ => exact .ok _

theorem Shifts.applySetters {A : Arith} (hA : RealShifts A) (L : Libs) (q : Query) (ss : List Setter) :
    Shifts (applySetters A L q ss) := by
  induction ss generalizing q with
  | nil => exact .ok _
  | cons s ss ih => exact (Shifts.applySetter hA L q s).bind fun _ => (ih _).bind fun _ => .ok _

end Verif
