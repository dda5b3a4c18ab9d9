import Verif.Lemmas.Json
import Verif.Model.TextForm
import Verif.Spec.TextForm

/-! # Lemmas about the text form of entries -/

namespace Verif
open Spec

/-- No newline. -/
abbrev NoNl (s : Bytes) : Prop := (10 : UInt8) ∉ s

theorem written_one {f : Form} {a : Bytes} (h : f a) : Written [f] a := ⟨a, [], by simp, h, rfl⟩

theorem written_cons {f : Form} {fs : List Form} {a b : Bytes} (h : f a) (h' : Written fs b) : Written (f :: fs) (a ++ b) :=
  ⟨a, b, rfl, h, h'⟩

theorem written_append {fs gs : List Form} {a b : Bytes} (h : Written fs a) (h' : Written gs b) :
    Written (fs ++ gs) (a ++ b) := by
  induction fs generalizing a with
  | nil => cases h; exact h'
  | cons f fs ih =>
    obtain ⟨x, y, rfl, h1, h2⟩ := h
    rw [List.append_assoc]
    exact ⟨x, _, rfl, h1, ih h2⟩

theorem hasLines_append {t t' : Bytes} {ls ls' : List (List Form)} (h : HasLines t ls) (h' : HasLines t' ls') :
    HasLines (t ++ t') (ls ++ ls') := by
  obtain ⟨ss, rfl, h1, h2⟩ := h
  obtain ⟨ss', rfl, h1', h2'⟩ := h'
  refine ⟨ss ++ ss', by simp, fun s hs => ?_, ?_⟩
  · rcases List.mem_append.1 hs with hs | hs
    · exact h1 s hs
    · exact h1' s hs
  · induction ls generalizing ss with
    | nil => cases ss with
      | nil => exact h2'
      | cons => exact h2.elim
    | cons l ls ih => cases ss with
      | nil => exact h2.elim
      | cons s ss =>
        exact ⟨h2.1, ih ss (fun x hx => h1 x (List.mem_cons_of_mem _ hx)) h2.2⟩

theorem hasLines_one {s : Bytes} {l : List Form} (h : Written l s) (hn : NoNl s) : HasLines (s ++ [10]) [l] :=
  ⟨[s], by simp, by simpa using hn, h, trivial⟩

/-! ## Times -/

theorem digit_ne {c : UInt8} (h : IsDigit c) : (10 : UInt8) ≠ c ∧ c ≠ 0 := by
  have : c.toNat ≠ 10 ∧ c.toNat ≠ 0 := by unfold IsDigit at h; omega
  exact ⟨fun e => this.1 (by rw [← e]; rfl), fun e => this.2 (by rw [e]; rfl)⟩

theorem readStamp_nonl {s : Bytes} {t : Nat} (h : readStamp s = some t) : NoNl s := by
  unfold readStamp at h
  split at h
  · next y1 y2 y3 y4 m1 m2 d1 d2 h1 h2 n1 n2 s1 s2 =>
    simp only at h
    split at h
    · next hd =>
      intro hm
      have D := fun c hc => (digit_ne (hd.1 c hc)).1
      simp only [List.mem_cons, List.not_mem_nil, or_false] at D hm
      rcases hm with hm | hm | hm | hm | hm | hm | hm | hm | hm | hm | hm | hm | hm | hm | hm | hm | hm | hm | hm | hm <;>
        first
          | exact D _ (by simp) hm
          | exact absurd hm (by decide)
    · cases h
  · cases h

theorem readClock_nonl {s : Bytes} {t : Nat} (h : readClock s = some t) : NoNl s ∧ s.length = 25 := by
  unfold readClock at h
  split at h
  · have := readStamp_nonl h
    refine ⟨?_, rfl⟩
    simp only [NoNl, List.mem_cons, List.not_mem_nil, or_false, not_or] at this ⊢
    obtain ⟨a1, a2, a3, a4, -, a6, a7, -, a9, a10, -, a12, a13, -, a15, a16, -, a18, a19, -⟩ := this
    exact ⟨a1, a2, a3, a4, by decide, a6, a7, by decide, a9, a10, by decide, a12, a13, by decide, a15, a16, by decide, a18, a19,
      by decide, by decide, by decide, by decide, by decide, by decide⟩
  · cases h

/-! ## Types -/

theorem numeral_nonl {s : Bytes} {n : Nat} (h : Numeral s n) : NoNl s := fun hm => (digit_ne (h.digits _ hm)).1 rfl

theorem typesText_eq (w : Wdns) (total : Nat) (ts : List Nat) (u : Bytes) (n : Nat) (h : n + ts.length = total) :
    rrtypesTextLoop w total u n ts = u ++ ([32] : Bytes).intercalate (ts.map (rrtypeText w)) := by
  induction ts generalizing u n with
  | nil => simp [rrtypesTextLoop, List.intercalate]
  | cons t ts ih =>
    rw [rrtypesTextLoop, ih _ _ (by simp at h; omega)]
    cases ts with
    | nil => rw [if_neg (by simp at h; omega)]; simp [fmtRrtype, List.intercalate]
    | cons t' ts =>
      rw [if_pos (by simp at h; omega)]
      simp [fmtRrtype, List.intercalate, lit]

theorem written_types {T : Texts} {f : Nat → Bytes} (ts : List Nat) (h : ∀ t ∈ ts, typeForm T t (f t)) :
    Written (typeForms T ts) (([32] : Bytes).intercalate (ts.map f)) := by
  induction ts with
  | nil => simp [typeForms, Written, List.intercalate]
  | cons t ts ih =>
    cases ts with
    | nil => simpa [typeForms, List.intercalate] using written_one (h t (by simp))
    | cons t' ts =>
      have := ih fun x hx => h x (List.mem_cons_of_mem _ hx)
      have e : ([32] : Bytes).intercalate ((t :: t' :: ts).map f) =
          f t ++ ([32] ++ ([32] : Bytes).intercalate ((t' :: ts).map f)) := by
        simp [List.intercalate]
      rw [e]
      exact written_cons (h t (by simp)) (written_cons rfl this)

theorem nonl_intercalate (xs : List Bytes) (h : ∀ x ∈ xs, NoNl x) : NoNl (([32] : Bytes).intercalate xs) := by
  induction xs with
  | nil => simp [NoNl, List.intercalate]
  | cons x xs ih =>
    cases xs with
    | nil => simpa [NoNl, List.intercalate] using h x (by simp)
    | cons y ys =>
      have e : ([32] : Bytes).intercalate (x :: y :: ys) = x ++ ([32] ++ ([32] : Bytes).intercalate (y :: ys)) := by
        simp [List.intercalate]
      rw [e]
      have h1 := h x (by simp)
      have h2 := ih fun z hz => h z (List.mem_cons_of_mem _ hz)
      simp only [NoNl, List.mem_append, List.mem_singleton, not_or] at *
      exact ⟨h1, by decide, h2⟩

/-! ## Records -/

/-- The line of a record, without its newline. -/
def lineOf (w : Wdns) (name : Bytes) (rrtype : Nat) (d : Bytes) : Bytes :=
  cstr name ++ (lit " IN " ++ (rrtypeText w rrtype ++ (lit " " ++ cstr (w.rdataToStr d (rrtype % 65536)))))

theorem recordText_eq (w : Wdns) (u name : Bytes) (rrtype : Nat) (d : Bytes) :
    recordText w u name rrtype d = u ++ (lineOf w name rrtype d ++ [10]) := by
  simp [recordText, lineOf, fmtRrtype]

theorem recordsLoop_eq (w : Wdns) (name : Bytes) (rrtype : Nat) (u : Bytes) (ds : List Bytes) :
    recordsLoop w name rrtype u ds = u ++ (ds.map (lineOf w name rrtype)).flatMap (· ++ [10]) := by
  induction ds generalizing u with
  | nil => simp [recordsLoop]
  | cons d ds ih => rw [recordsLoop, ih, recordText_eq]; simp

theorem splitGo (cur : Bytes) (s rest : Bytes) (h : NoNl s) :
    splitLines.go cur (s ++ 10 :: rest) = (cur ++ s) :: splitLines.go [] rest := by
  induction s generalizing cur with
  | nil => simp [splitLines.go]
  | cons c s ih =>
    have hc : c ≠ 10 := fun e => h (by simp [e])
    simp only [List.cons_append, splitLines.go, if_neg hc]
    rw [ih _ (fun hm => h (List.mem_cons_of_mem _ hm))]
    simp

theorem splitLines_eq (ss : List Bytes) (h : ∀ s ∈ ss, NoNl s) : splitLines (ss.flatMap (· ++ [10])) = ss := by
  unfold splitLines
  induction ss with
  | nil => rfl
  | cons s ss ih =>
    rw [List.flatMap_cons, List.append_assoc, List.singleton_append, splitGo _ _ _ (h s (by simp)), ih fun x hx => h x (List.mem_cons_of_mem _ hx)]
    simp

theorem field_eq {a : Bytes} (h : (32 : UInt8) ∉ a) (b : Bytes) : field (a ++ 32 :: b) = some (a, b) := by
  induction a with
  | nil => simp [field]
  | cons c a ih =>
    have hc : c ≠ 32 := fun e => h (by simp [e])
    simp only [List.cons_append, field, if_neg hc]
    rw [ih fun hm => h (List.mem_cons_of_mem _ hm)]
    rfl

end Verif
