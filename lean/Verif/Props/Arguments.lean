import Verif.Spec.Arguments
import Verif.Props.Addr
import Verif.Props.Format
import Verif.Props.Symbols
import Verif.Lemmas.Names
import Verif.Lemmas.Mtbl

/-! # C52: which arguments query setters take -/

namespace Verif.Props
open Verif Verif.Spec

/-! ## Splitting -/

private theorem split_exists (sep : UInt8) (s : Bytes) :
    ∃ fs : List Bytes, fs ≠ [] ∧ (∀ f ∈ fs, sep ∉ f) ∧ s = ([sep] : Bytes).intercalate fs := by
  induction s with
  | nil => exact ⟨[[]], by simp, by simp, by simp [List.intercalate]⟩
  | cons c s ih =>
    obtain ⟨fs, h0, h1, h2⟩ := ih
    by_cases hc : c = sep
    · refine ⟨[] :: fs, by simp, ?_, ?_⟩
      · intro f hf
        rcases List.mem_cons.1 hf with rfl | hf
        · simp
        · exact h1 f hf
      · cases fs with
        | nil => exact absurd rfl h0
        | cons f fs => rw [h2, hc]; simp [List.intercalate]
    · cases fs with
      | nil => exact absurd rfl h0
      | cons f fs =>
        refine ⟨(c :: f) :: fs, by simp, ?_, ?_⟩
        · intro g hg
          rcases List.mem_cons.1 hg with rfl | hg
          · simp only [List.mem_cons, not_or]
            exact ⟨fun h => hc h.symm, h1 f (by simp)⟩
          · exact h1 g (by simp [hg])
        · rw [h2]
          cases fs <;> simp [List.intercalate]

/-- The tokens are the pieces. -/
theorem tokens_iff (sep : UInt8) (s : Bytes) (ps : List Bytes) : tokens sep s = ps ↔ Pieces sep s ps := by
  constructor
  · rintro rfl
    obtain ⟨fs, -, h1, h2⟩ := split_exists sep s
    exact ⟨fs, h1, h2, by rw [h2]; exact tokens_join fs h1⟩
  · rintro ⟨fs, h1, rfl, rfl⟩
    exact tokens_join fs h1

/-- The pieces are parts of the text. -/
theorem pieces_mem {sep c : UInt8} {s p : Bytes} {ps : List Bytes} (h : Pieces sep s ps) (hp : p ∈ ps) (hc : c ∈ p) :
    c ∈ s := by
  obtain ⟨fs, -, rfl, rfl⟩ := h
  obtain ⟨l, r, rfl⟩ := List.append_of_mem (List.mem_filter.1 hp).1
  clear hp
  induction l with
  | nil => cases r <;> simp [List.intercalate, hc]
  | cons f l ih =>
    cases l with
    | nil =>
      simp only [List.nil_append, List.cons_append] at ih ⊢
      simp only [List.intercalate, List.intersperse_cons_cons, List.flatten_cons, List.mem_append] at ih ⊢
      exact .inr (.inr ih)
    | cons g l =>
      simp only [List.cons_append] at ih ⊢
      simp only [List.intercalate, List.intersperse_cons_cons, List.flatten_cons, List.mem_append] at ih ⊢
      exact .inr (.inr ih)

/-! ## Numbers -/

theorem isSpace_iff (c : UInt8) : isSpace c = true ↔ Blank c := by
  refine u8_all (P := fun c => isSpace c = true ↔ (c = 32 ∨ c = 9 ∨ c = 10 ∨ c = 11 ∨ c = 12 ∨ c = 13)) ?_ c
  decide +kernel

theorem isDigit_iff (c : UInt8) : (48 ≤ c && c ≤ 57) = true ↔ IsDigit c := by
  refine u8_all (P := fun c => (48 ≤ c && c ≤ 57) = true ↔ IsDigit c) ?_ c
  decide +kernel

theorem digit_plain {c : UInt8} (h : IsDigit c) : c ≠ 45 ∧ c ≠ 43 ∧ isSpace c = false := by
  revert h
  refine u8_all (P := fun c => IsDigit c → c ≠ 45 ∧ c ≠ 43 ∧ isSpace c = false) ?_ c
  decide +kernel

theorem dropWhile_all {p : UInt8 → Bool} {ws rest : Bytes} (h : ∀ c ∈ ws, p c = true)
    (hr : ∀ c t, rest = c :: t → p c = false) : (ws ++ rest).dropWhile p = rest := by
  induction ws with
  | nil =>
    cases rest with
    | nil => rfl
    | cons c t => simp [hr c t rfl]
  | cons w ws ih =>
    simp only [List.cons_append, List.dropWhile_cons, h w (by simp), if_true]
    exact ih fun c hc => h c (by simp [hc])

/-- `strtol` on texts without a minus sign. -/
theorem strtol_iff {s : Bytes} (hs : 45 ∉ s) (v : Int) :
    strtolAll s = some v ↔ ∃ n : Nat, LengthText s n ∧ n < 2 ^ 63 ∧ v = n := by
  constructor
  · intro h
    have hd : s = s.takeWhile isSpace ++ s.dropWhile isSpace := (List.takeWhile_append_dropWhile ..).symm
    have hw : ∀ c ∈ s.takeWhile isSpace, Blank c := fun c hc => (isSpace_iff c).1 (by
      have := List.all_takeWhile (p := isSpace) (l := s)
      exact List.all_eq_true.1 this c hc)
    have h45 : 45 ∉ s.dropWhile isSpace := fun hm => hs (by rw [hd]; exact List.mem_append_right _ hm)
    unfold strtolAll at h
    revert h hd h45 hw
    generalize s.dropWhile isSpace = t
    generalize s.takeWhile isSpace = ws
    intro h hd hw h45
    simp only at h
    have key : ∀ ds : Bytes, (if ds = [] ∨ ¬ (ds.all fun c => 48 ≤ c && c ≤ 57) = true then none
        else if ((numval ds : Nat) : Int) < -(2 ^ 63) ∨ ((numval ds : Nat) : Int) ≥ 2 ^ 63 then none
          else some ((numval ds : Nat) : Int)) = some v →
        ds ≠ [] ∧ (∀ c ∈ ds, IsDigit c) ∧ numval ds < 2 ^ 63 ∧ v = numval ds := by
      intro ds h
      split at h
      · cases h
      · next hn =>
        split at h
        · cases h
        · next hv =>
          simp only [not_or, Decidable.not_not] at hn
          cases h
          exact ⟨hn.1, fun c hc => (isDigit_iff c).1 (List.all_eq_true.1 hn.2 c hc), by omega, rfl⟩
    cases t with
    | nil => exact absurd h (by simp)
    | cons c t =>
      simp only [List.mem_cons, not_or] at h45
      simp only [if_neg (Ne.symm h45.1)] at h
      by_cases hc : c = 43
      · simp only [if_pos hc] at h
        obtain ⟨a, b, d, e⟩ := key t (by simpa [numval] using h)
        exact ⟨_, ⟨ws, [43], t, by rw [hd, hc]; simp, hw, .inr rfl, a, b, rfl⟩, d, e⟩
      · simp only [if_neg hc] at h
        obtain ⟨a, b, d, e⟩ := key (c :: t) (by simpa [numval] using h)
        exact ⟨_, ⟨ws, [], c :: t, by rw [hd]; simp, hw, .inl rfl, a, b, rfl⟩, d, e⟩
  · rintro ⟨n, ⟨ws, sign, ds, rfl, hw, hsg, hn, hd, rfl⟩, hlt, rfl⟩
    have hall : (ds.all fun c => 48 ≤ c && c ≤ 57) = true := List.all_eq_true.2 fun c hc => (isDigit_iff c).2 (hd c hc)
    have hfirst : ∀ c t, sign ++ ds = c :: t → isSpace c = false := by
      rcases hsg with rfl | rfl
      · intro c t e
        have : c ∈ ds := by rw [List.nil_append] at e; rw [e]; simp
        exact (digit_plain (hd c this)).2.2
      · intro c t e
        cases e; decide
    unfold strtolAll
    rw [List.append_assoc, dropWhile_all (fun c hc => (isSpace_iff c).2 (hw c hc)) hfirst]
    rcases hsg with rfl | rfl
    · cases ds with
      | nil => exact absurd rfl hn
      | cons c ds =>
        have hc := digit_plain (hd c (by simp))
        simp only [List.nil_append, if_neg hc.1, if_neg hc.2.1]
        rw [if_neg (by simp [hall])]
        have e : List.foldl (fun a c => 10 * a + (c.toNat - 48)) 0 (c :: ds) = numval (c :: ds) := rfl
        simp only [Bool.false_eq_true, if_false]
        rw [e, if_neg (by omega)]
    · simp only [List.cons_append, List.nil_append]
      have h43 : ¬ (43 : UInt8) = 45 := by decide
      simp only [if_neg h43, if_true]
      rw [if_neg (by simp [hall, hn])]
      have e : List.foldl (fun a c => 10 * a + (c.toNat - 48)) 0 ds = numval ds := rfl
      simp only [Bool.false_eq_true, if_false]
      rw [e, if_neg (by omega)]

/-! ## Addresses -/

private theorem loadAddress_iff (L : Libs) (s a : Bytes) : loadAddress L s = (a, true) ↔ AddressText L s a := by
  unfold loadAddress AddressText
  cases h4 : L.pton4 s with
  | some b => simp
  | none => cases h6 : L.pton6 s <;> simp

private theorem addr_len {L : Libs} (hL : LibsOk L) {s a : Bytes} (h : AddressText L s a) :
    a.length = 4 ∨ a.length = 16 := by
  rcases h with h | ⟨-, h⟩
  · exact .inl (hL.pton4 _ _ h)
  · exact .inr (hL.pton6 _ _ h)

private theorem withIpType_eq {q : Query} (h : q.ip1.length = 4 ∨ q.ip1.length = 16) :
    withIpType q = { q with doRrtype := true, rrtype := addressType q.ip1 } := by
  unfold withIpType addressType
  rcases h with h | h <;> simp [h]

/-- Lengths for which the shifts of the prefix code are defined and give the right mask. -/
def ShiftsOk (A : Arith) (a : Bytes) (n : Nat) : Prop :=
  (a.length = 4 → A = strictArith ∧ 2 ≤ n ∨ A = x86Arith ∧ 1 ≤ n) ∧
  (a.length = 16 → A = strictArith ∧ n ≠ 0 ∧ n ≠ 64 ∨ A = x86Arith)

/-- The bounds of a prefix are determined by the addresses between them. -/
private theorem bounds_unique {a lo hi lo' hi' : Bytes} {n : Nat} (h1 : lo.length = a.length) (h2 : hi.length = a.length)
    (h3 : lo'.length = a.length) (h4 : hi'.length = a.length)
    (h : ∀ x : Bytes, x.length = a.length → ((lexLe lo x = true ∧ lexLe x hi = true) ↔ sameBits n x a))
    (h' : ∀ x : Bytes, x.length = a.length → ((lexLe lo' x = true ∧ lexLe x hi' = true) ↔ sameBits n x a)) :
    lo = lo' ∧ hi = hi' := by
  have e : ∀ x : Bytes, x.length = a.length → ((lexLe lo x = true ∧ lexLe x hi = true) ↔ (lexLe lo' x = true ∧ lexLe x hi' = true)) :=
    fun x hx => (h x hx).trans (h' x hx).symm
  have hself : sameBits n a a := fun _ _ => rfl
  obtain ⟨a1, a2⟩ := (h a rfl).2 hself
  obtain ⟨b1, b2⟩ := (h' a rfl).2 hself
  have refl : ∀ x, lexLe x x = true := fun x => by simp [lexLe, lexLt_irrefl]
  have trans : ∀ {x y z : Bytes}, lexLe x y = true → lexLe y z = true → lexLe x z = true := fun p q => lexLe_trans p q
  have c1 := (e lo h1).1 ⟨refl lo, trans a1 a2⟩
  have c2 := (e lo' h3).2 ⟨refl lo', trans b1 b2⟩
  have c3 := (e hi h2).1 ⟨trans a1 a2, refl hi⟩
  have c4 := (e hi' h4).2 ⟨trans b1 b2, refl hi'⟩
  exact ⟨lexLe_antisymm c2.1 c1.1, lexLe_antisymm c3.2 c4.2⟩

/-- The prefix code. -/
private theorem prefix_asks {A : Arith} {L : Libs} (hL : LibsOk L) {q : Query} {s : Bytes} (hs : 45 ∉ s) (h47 : 47 ∈ s)
    (hA : ∀ a n, PrefixText L s a n → n ≤ 8 * a.length → ShiftsOk A a n) :
    (∃ a n lo hi, PrefixText L s a n ∧ n ≤ 8 * a.length ∧ lo.length = a.length ∧ hi.length = a.length ∧
      (∀ x : Bytes, x.length = a.length → ((lexLe lo x = true ∧ lexLe x hi = true) ↔ sameBits n x a)) ∧
      setDataPrefix A L q s = .ok ({ q with ip1 := lo, ip2 := hi, doRrtype := true, rrtype := addressType a }, true)) ∨
    (setDataPrefix A L q s = .ok (q, false) ∧ ∀ a n, PrefixText L s a n → ¬ n ≤ 8 * a.length) := by
  have det : ∀ x y a n, tokens 47 s = [x, y] → PrefixText L s a n → AddressText L x a ∧ LengthText y n := by
    rintro x y a n ht ⟨-, -, x', y', hp, h1, h2⟩
    have := (tokens_iff 47 s _).2 hp
    rw [ht] at this
    cases this
    exact ⟨h1, h2⟩
  unfold setDataPrefix
  split
  · next addr len ht =>
    have hp := (tokens_iff 47 s _).1 ht
    have hmem : 45 ∉ len := fun hm => hs (pieces_mem hp (by simp) hm)
    split
    · next hl =>
      right
      refine ⟨rfl, fun a n h => ?_⟩
      have := (loadAddress_iff L addr a).2 (det _ _ _ _ ht h).1
      rw [hl] at this; cases this
    · next ip hl =>
      have ha := (loadAddress_iff L addr ip).1 hl
      split
      · next hn =>
        right
        refine ⟨rfl, fun a n h hle => ?_⟩
        obtain ⟨h1, h2⟩ := det _ _ _ _ ht h
        have h3 : a.length = 4 ∨ a.length = 16 := addr_len hL h1
        have := (strtol_iff hmem n).2 ⟨n, h2, by omega, rfl⟩
        rw [hn] at this; cases this
      · next plen hn =>
        obtain ⟨n, hln, hlt, rfl⟩ := (strtol_iff hmem _).1 hn
        have hpt : PrefixText L s ip n := ⟨hs, h47, addr, len, hp, ha, hln⟩
        have hlen := addr_len hL ha
        by_cases hle : n ≤ 8 * ip.length
        · left
          rw [if_neg (by omega)]
          have e : ((n : Int) % 2 ^ 32).toNat = n := by omega
          obtain ⟨hA4, hA6⟩ := hA ip n hpt hle
          rcases hlen with h4 | h16
          · obtain ⟨lo, hi, b1, b2, b3, b4, b5, b6⟩ := ip4_bounds h4 (ip4Host_eq (hA4 h4) (by omega))
            refine ⟨ip, n, lo, hi, hpt, hle, by omega, by omega,
              fun x hx => between_bounds (k := 4) h4 b3 b4 (by omega) (by omega) b5 b6, ?_⟩
            rw [if_pos h4]
            simp only [e, b1, b2, Out.ok_bind, addressType, if_pos h4]
          · obtain ⟨lo, hi, b1, b2, b3, b4, b5, b6⟩ := ip6_bounds h16 (by omega) (hA6 h16)
            refine ⟨ip, n, lo, hi, hpt, hle, by omega, by omega,
              fun x hx => between_bounds (k := 16) h16 b3 b4 (by omega) (by omega) b5 b6, ?_⟩
            have h4 : ¬ ip.length = 4 := by omega
            rw [if_neg h4, if_pos h16]
            simp only [e, b1, b2, Out.ok_bind, addressType, if_neg h4]
        · right
          rw [if_pos (by omega)]
          refine ⟨rfl, fun a m h => ?_⟩
          obtain ⟨h1, h2⟩ := det _ _ _ _ ht h
          have h3 := (loadAddress_iff L addr a).2 h1
          rw [hl] at h3; cases h3
          by_cases hm : m < 2 ^ 63
          · have := (strtol_iff hmem m).2 ⟨m, h2, hm, rfl⟩
            rw [hn] at this
            have : (n : Int) = m := by simpa using this
            omega
          · omega
  · next hne =>
    right
    refine ⟨rfl, fun a n h => ?_⟩
    obtain ⟨-, -, x, y, hp, -, -⟩ := h
    exact absurd ((tokens_iff 47 s _).2 hp) (hne x y)

private theorem prefix_unique {L : Libs} {s a b : Bytes} {n m : Nat} (h1 : PrefixText L s a n) (h2 : PrefixText L s b m)
    (hn : n < 2 ^ 63) (hm : m < 2 ^ 63) : a = b ∧ n = m := by
  obtain ⟨h45, -, x, y, p1, a1, l1⟩ := h1
  obtain ⟨-, -, x', y', p2, a2, l2⟩ := h2
  have e := ((tokens_iff ..).2 p1).symm.trans ((tokens_iff ..).2 p2)
  cases e
  have e := ((loadAddress_iff ..).2 a1).symm.trans ((loadAddress_iff ..).2 a2)
  cases e
  have hy : 45 ∉ y := fun h => h45 (pieces_mem p1 (by simp) h)
  have e := ((strtol_iff hy n).2 ⟨n, l1, hn, rfl⟩).symm.trans ((strtol_iff hy m).2 ⟨m, l2, hm, rfl⟩)
  exact ⟨rfl, by have : (n : Int) = m := Option.some.inj e
                 omega⟩

/-! ## The theorem -/

private theorem ok_iff {r q' : Query} {b : Bool} (S : Query → Prop) (h1 : b = true → S r)
    (h2 : ∀ x, S x → b = true ∧ x = r) : ((r, b) = (q', true)) ↔ S q' := by
  constructor
  · intro h
    have := Prod.mk.inj h
    rw [← this.1]; exact h1 this.2
  · intro h
    obtain ⟨a, b⟩ := h2 _ h
    rw [a, b]

/-- C52 (partial: IPv4 prefixes of length 0, and in strict C those of `C24_undefined_counterexample`, are excepted).
A setter call succeeds exactly for the documented arguments, and then makes the query ask for what was given and
changes nothing else. -/
theorem C52_asks_partial (A : Arith) (L : Libs) (hL : LibsOk L) (q : Query) (t : Setter)
    (hA : ∀ s a n, q.qType = .rdataIp → t = .data (some s) → PrefixText L s a n → n ≤ 8 * a.length → ShiftsOk A a n) :
    ∃ r, applySetter A L q t = .ok r ∧ ∀ q', r = (q', true) ↔ Asks L q t q' := by
  cases t with
  | caseSensitive b =>
    exact ⟨_, rfl, fun q' => ok_iff _ (fun _ => .caseSensitive) fun x h => by cases h; exact ⟨rfl, rfl⟩⟩
  | offset b => exact ⟨_, rfl, fun q' => ok_iff _ (fun _ => .offset) fun x h => by cases h; exact ⟨rfl, rfl⟩⟩
  | aggregated b => exact ⟨_, rfl, fun q' => ok_iff _ (fun _ => .aggregated) fun x h => by cases h; exact ⟨rfl, rfl⟩⟩
  | timeout t =>
    refine ⟨setTimeout q t, rfl, fun q' => ?_⟩
    cases t with
    | none => exact ok_iff _ (fun _ => .noTimeout) fun x h => by cases h; exact ⟨rfl, rfl⟩
    | some t => exact ok_iff _ (fun _ => .timeout) fun x h => by cases h; exact ⟨rfl, rfl⟩
  | deadline t =>
    refine ⟨setDeadlineParam q t, rfl, fun q' => ?_⟩
    cases t with
    | none => exact ok_iff _ (fun _ => .noDeadline) fun x h => by cases h; exact ⟨rfl, rfl⟩
    | some t => exact ok_iff _ (fun _ => .deadline) fun x h => by cases h; exact ⟨rfl, rfl⟩
  | filterParam p v n =>
    refine ⟨setFilterParameter q p v n, rfl, fun q' => ?_⟩
    unfold setFilterParameter
    split
    · next hn => exact ok_iff _ (fun h => by cases h) fun x h => by cases h <;> exact absurd rfl hn
    · next hn =>
      have hn : n = 8 := by omega
      subst hn
      split
      · next h => subst h; exact ok_iff _ (fun _ => .firstBefore) fun x h => by cases h; exact ⟨rfl, rfl⟩
      · next h0 =>
        split
        · next h => subst h; exact ok_iff _ (fun _ => .firstAfter) fun x h => by cases h; exact ⟨rfl, rfl⟩
        · next h1 =>
          split
          · next h => subst h; exact ok_iff _ (fun _ => .lastBefore) fun x h => by cases h; exact ⟨rfl, rfl⟩
          · next h2 =>
            split
            · next h => subst h; exact ok_iff _ (fun _ => .lastAfter) fun x h => by cases h; exact ⟨rfl, rfl⟩
            · next h3 => exact ok_iff _ (fun h => by cases h) fun x h => by cases h <;> first | exact absurd rfl h0 | exact absurd rfl h1 | exact absurd rfl h2 | exact absurd rfl h3
  | rrtype s =>
    refine ⟨setRrtype L q s, rfl, fun q' => ?_⟩
    cases s with
    | none => exact ok_iff _ (fun _ => .noRrtype) fun x h => by cases h; exact ⟨rfl, rfl⟩
    | some s =>
      unfold setRrtype
      have hany : (sameNoCase s (lit "ANY") = true ∨ sameNoCase s (lit "TYPE255") = true ∨
          sameNoCase s (lit "ANY-DNSSEC") = true) ↔ AnyType s := by simp only [sameNoCase_iff, AnyType]
      by_cases hs : AnyType s
      · simp only [if_pos (hany.2 hs)]
        exact ok_iff _ (fun _ => .anyRrtype hs) fun x h => by
          cases h with
          | anyRrtype _ => exact ⟨rfl, rfl⟩
          | rrtype h => exact absurd hs h
      · simp only [if_neg fun h => hs (hany.1 h)]
        rw [Nat.mod_eq_of_lt (hL.rrtype s)]
        split
        · next h0 =>
          exact ok_iff _ (fun h => by cases h) fun x h => by
            cases h with
            | anyRrtype h => exact absurd h hs
            | rrtype _ h1 h2 => exact absurd (h1.symm.trans h0) h2
        · next h0 =>
          exact ok_iff _ (fun _ => .rrtype hs rfl h0) fun x h => by
            cases h with
            | anyRrtype h => exact absurd h hs
            | rrtype _ h1 h2 => subst h1; exact ⟨rfl, rfl⟩
  | bailiwick s =>
    refine ⟨setBailiwick L q s, rfl, fun q' => ?_⟩
    unfold setBailiwick
    split
    · next hq => exact ok_iff _ (fun h => by cases h) fun x h => by cases h <;> exact absurd ‹_› hq
    · next hq =>
      have hq : q.qType = .rrset := by simpa using hq
      cases s with
      | none => exact ok_iff _ (fun _ => .noBailiwick hq) fun x h => by cases h; exact ⟨rfl, rfl⟩
      | some s =>
        simp only [loadName]
        cases hn : L.strToName s with
        | none =>
          exact ok_iff _ (fun h => by cases h) fun x h => by
            cases h with
            | bailiwick _ _ h => obtain ⟨m, h, -⟩ := h; rw [hn] at h; cases h
        | some n =>
          obtain ⟨ls, h1, rfl⟩ := hL.name s n hn
          obtain ⟨ls', h2, h3⟩ := hL.lower ls h1
          simp only [Bool.false_eq_true, if_false, h3, reverseName_wire h2.1]
          exact ok_iff _ (fun _ => .bailiwick hq h2 ⟨_, hn, by simp [h3]⟩) fun x h => by
            cases h with
            | bailiwick _ hl h =>
              obtain ⟨m, h, e⟩ := h
              rw [hn] at h; cases h
              simp only [Bool.false_eq_true, if_false, h3] at e
              have := reverseName_wire hl.1
              rw [e, reverseName_wire h2.1] at this
              have e2 : wire ls'.reverse = _ := Out.ok.inj this
              rw [e2]; exact ⟨rfl, rfl⟩
  | data s =>
    have names : (q.qType = .rrset ∨ q.qType = .rdataName) →
        ∀ q', setDataName L q s = (q', true) ↔ Asks L q (.data s) q' := by
      intro hq q'
      have hk : q.qType ≠ .rdataRaw ∧ q.qType ≠ .version ∧ q.qType ≠ .rdataIp := by
        rcases hq with hq | hq <;> rw [hq] <;> decide
      unfold setDataName
      cases s with
      | none =>
        exact ok_iff _ (fun _ => .noName hq) fun x h => by
          cases h with
          | noName => exact ⟨rfl, rfl⟩
          | noRaw h => exact absurd h hk.1
          | noVersion h => exact absurd h hk.2.1
          | noAddress h => exact absurd h hk.2.2
      | some s =>
        have other : ∀ {x}, Asks L q (.data (some s)) x → ∃ n, Named L q.caseSensitive s n ∧ x = { q with name := n } := by
          intro x h
          cases h with
          | name _ h => exact ⟨_, h, rfl⟩
          | raw h => exact absurd h hk.1
          | version h => exact absurd h hk.2.1
          | address h => exact absurd h hk.2.2
          | range h => exact absurd h hk.2.2
          | pref h => exact absurd h hk.2.2
        simp only [loadName]
        cases hn : L.strToName s with
        | none =>
          exact ok_iff _ (fun h => by cases h) fun x h => by
            obtain ⟨n, ⟨m, h, -⟩, -⟩ := other h
            rw [hn] at h; cases h
        | some n =>
          exact ok_iff _ (fun _ => .name hq ⟨_, hn, rfl⟩) fun x h => by
            obtain ⟨n', ⟨m, h', e⟩, rfl⟩ := other h
            rw [hn] at h'; cases h'
            subst e; exact ⟨rfl, rfl⟩
    cases hq : q.qType with
    | rrset => exact ⟨_, by simp only [applySetter, setData, hq], names (.inl hq)⟩
    | rdataName => exact ⟨_, by simp only [applySetter, setData, hq], names (.inr hq)⟩
    | sourceInfo =>
      refine ⟨_, by simp only [applySetter, setData, hq]; rfl, fun q' => ok_iff _ (fun h => by cases h) fun x h => ?_⟩
      exfalso; cases h <;> simp_all
    | timeRange =>
      refine ⟨_, by simp only [applySetter, setData, hq]; rfl, fun q' => ok_iff _ (fun h => by cases h) fun x h => ?_⟩
      exfalso; cases h <;> simp_all
    | version =>
      refine ⟨setVersionType q s, by simp only [applySetter, setData, hq], fun q' => ?_⟩
      cases s with
      | none =>
        exact ok_iff _ (fun _ => .noVersion hq) fun x h => by
          cases h with
          | noVersion h => exact ⟨rfl, rfl⟩
          | noName h => rw [hq] at h; simp at h
          | noRaw h => rw [hq] at h; cases h
          | noAddress h => rw [hq] at h; cases h
      | some s =>
        have other : ∀ {x}, Asks L q (.data (some s)) x → ∃ t, (t, s) ∈ versionNames ∧
            x = { q with hasVType := true, vType := UInt8.ofNat t } := by
          intro x h
          cases h with
          | version _ h => exact ⟨_, h, rfl⟩
          | name h => rw [hq] at h; simp at h
          | raw h => rw [hq] at h; cases h
          | address h => rw [hq] at h; cases h
          | range h => rw [hq] at h; cases h
          | pref h => rw [hq] at h; cases h
        have sub : ∀ t, (t, s) ∈ versionNames ↔ (t, s) ∈ entryTypeNames ∧ (t = 0 ∨ t = 1 ∨ t = 2 ∨ t = 3) := by
          intro t
          simp only [versionNames, entryTypeNames, List.mem_cons, Prod.mk.injEq, List.not_mem_nil, or_false]
          constructor
          · rintro (⟨rfl, h⟩ | ⟨rfl, h⟩ | ⟨rfl, h⟩ | ⟨rfl, h⟩) <;> simp [h]
          · rintro ⟨⟨rfl, h⟩ | ⟨rfl, h⟩ | ⟨rfl, h⟩ | ⟨rfl, h⟩ | ⟨rfl, h⟩ | ⟨rfl, h⟩ | ⟨rfl, h⟩, hb⟩ <;> simp_all
        unfold setVersionType
        simp only
        have hty := fun t => (C42_entry_types t s).2.1
        cases ht : entryTypeFromString s with
        | ok t =>
          by_cases h : t = 0 ∨ t = 1 ∨ t = 2 ∨ t = 3
          · simp only [if_pos h]
            exact ok_iff _ (fun _ => .version hq ((sub t).2 ⟨(hty t).1 ht, h⟩)) fun x hx => by
              obtain ⟨u, hu, rfl⟩ := other hx
              have := (hty u).2 ((sub u).1 hu).1
              rw [ht] at this; cases this
              exact ⟨rfl, rfl⟩
          · simp only [if_neg h]
            exact ok_iff _ (fun h => by cases h) fun x hx => by
              obtain ⟨u, hu, rfl⟩ := other hx
              have := (hty u).2 ((sub u).1 hu).1
              rw [ht] at this; cases this
              exact absurd ((sub _).1 hu).2 h
        | fail =>
          exact ok_iff _ (fun h => by cases h) fun x hx => by
            obtain ⟨u, hu, rfl⟩ := other hx
            have := (hty u).2 ((sub u).1 hu).1
            rw [ht] at this; cases this
        | fault f =>
          exact ok_iff _ (fun h => by cases h) fun x hx => by
            obtain ⟨u, hu, rfl⟩ := other hx
            have := (hty u).2 ((sub u).1 hu).1
            rw [ht] at this; cases this
    | rdataRaw =>
      refine ⟨setDataRaw q s, by simp only [applySetter, setData, hq], fun q' => ?_⟩
      unfold setDataRaw
      cases s with
      | none =>
        exact ok_iff _ (fun _ => .noRaw hq) fun x h => by
          cases h with
          | noRaw h => exact ⟨rfl, rfl⟩
          | noName h => rw [hq] at h; simp at h
          | noVersion h => rw [hq] at h; cases h
          | noAddress h => rw [hq] at h; cases h
      | some s =>
        have other : ∀ {x}, Asks L q (.data (some s)) x → ∃ bs, hexDecode s = .ok bs ∧
            x = { q with rdata := some bs, lenRdata := bs.length } ∧ s ≠ [] ∧ s.length = 2 * bs.length := by
          intro x h
          cases h with
          | raw _ h0 h => exact ⟨_, (C40_decode s _).2 ⟨h0, h⟩, rfl, h0, hex_length h⟩
          | name h => rw [hq] at h; simp at h
          | version h => rw [hq] at h; cases h
          | address h => rw [hq] at h; cases h
          | range h => rw [hq] at h; cases h
          | pref h => rw [hq] at h; cases h
        simp only
        split
        · next hl =>
          exact ok_iff _ (fun h => by cases h) fun x hx => by
            obtain ⟨bs, h1, -, h2, h3⟩ := other hx
            rcases hl with hl | hl
            · exact absurd (List.length_eq_zero_iff.1 hl) h2
            · omega
        · next hl =>
          cases hd : hexDecode s with
          | ok bs =>
            obtain ⟨h0, hh⟩ := (C40_decode s bs).1 hd
            have e : s.length / 2 = bs.length := by have := hex_length hh; omega
            simp only [e]
            exact ok_iff _ (fun _ => .raw hq h0 hh) fun x hx => by
              obtain ⟨bs', h1, rfl, -⟩ := other hx
              rw [hd] at h1; cases h1
              exact ⟨rfl, rfl⟩
          | fail =>
            exact ok_iff _ (fun h => by cases h) fun x hx => by
              obtain ⟨bs', h1, rfl, -⟩ := other hx
              rw [hd] at h1; cases h1
          | fault f =>
            exact ok_iff _ (fun h => by cases h) fun x hx => by
              obtain ⟨bs', h1, rfl, -⟩ := other hx
              rw [hd] at h1; cases h1
    | rdataIp =>
      cases s with
      | none =>
        refine ⟨_, by simp only [applySetter, setData, hq, setDataIp]; rfl, fun q' => ok_iff _ (fun _ => .noAddress hq) fun x h => ?_⟩
        cases h with
        | noAddress h => exact ⟨rfl, rfl⟩
        | noName h => rw [hq] at h; simp at h
        | noVersion h => rw [hq] at h; cases h
        | noRaw h => rw [hq] at h; cases h
      | some s =>
        by_cases h45 : 45 ∈ s
        · have other : ∀ {x}, Asks L q (.data (some s)) x → ∃ u v a b, tokens 45 s = [u, v] ∧ loadAddress L u = (a, true) ∧
              loadAddress L v = (b, true) ∧ a.length = b.length ∧
              x = { q with ip1 := a, ip2 := b, doRrtype := true, rrtype := addressType a } := by
            intro x h
            cases h with
            | range _ _ h1 h2 h3 h4 =>
              exact ⟨_, _, _, _, (tokens_iff ..).2 h1, (loadAddress_iff ..).2 h2, (loadAddress_iff ..).2 h3, h4, rfl⟩
            | raw h => rw [hq] at h; cases h
            | name h => rw [hq] at h; simp at h
            | version h => rw [hq] at h; cases h
            | address _ h => exact absurd h45 h
            | pref _ h => exact absurd h45 h.1
          refine ⟨setDataRange L q s, by simp only [applySetter, setData, hq, setDataIp, if_pos h45], fun q' => ?_⟩
          unfold setDataRange
          split
          · next u v ht =>
            split
            · next a hu =>
              exact ok_iff _ (fun h => by cases h) fun x hx => by
                obtain ⟨u', v', a', b', h1, h2, h3, -⟩ := other hx
                rw [ht] at h1; cases h1
                rw [hu] at h2; cases h2
            · next a hu =>
              simp only
              split
              · next b hv =>
                exact ok_iff _ (fun h => by cases h) fun x hx => by
                  obtain ⟨u', v', a', b', h1, h2, h3, -⟩ := other hx
                  rw [ht] at h1; cases h1
                  rw [hv] at h3; cases h3
              · next b hv =>
                have ha := (loadAddress_iff ..).1 hu
                have hb := (loadAddress_iff ..).1 hv
                split
                · next hl =>
                  exact ok_iff _ (fun h => by cases h) fun x hx => by
                    obtain ⟨u', v', a', b', h1, h2, h3, h4, -⟩ := other hx
                    rw [ht] at h1; cases h1
                    rw [hu] at h2; cases h2
                    rw [hv] at h3; cases h3
                    exact absurd h4 hl
                · next hl =>
                  rw [withIpType_eq (by exact addr_len hL ha)]
                  exact ok_iff _ (fun _ => .range hq h45 ((tokens_iff ..).1 ht) ha hb (by simpa using hl)) fun x hx => by
                    obtain ⟨u', v', a', b', h1, h2, h3, h4, rfl⟩ := other hx
                    rw [ht] at h1; cases h1
                    rw [hu] at h2; cases h2
                    rw [hv] at h3; cases h3
                    exact ⟨rfl, rfl⟩
          · next hne =>
            exact ok_iff _ (fun h => by cases h) fun x hx => by
              obtain ⟨u', v', a', b', h1, -⟩ := other hx
              exact absurd h1 (hne _ _)
        · by_cases h47 : 47 ∈ s
          · have other : ∀ {x}, Asks L q (.data (some s)) x → ∃ a n lo hi, PrefixText L s a n ∧ n ≤ 8 * a.length ∧
                lo.length = a.length ∧ hi.length = a.length ∧
                (∀ x : Bytes, x.length = a.length → ((lexLe lo x = true ∧ lexLe x hi = true) ↔ sameBits n x a)) ∧
                x = { q with ip1 := lo, ip2 := hi, doRrtype := true, rrtype := addressType a } := by
              intro x h
              cases h with
              | pref _ h1 h2 h3 h4 h5 => exact ⟨_, _, _, _, h1, h2, h3, h4, h5, rfl⟩
              | range _ h => exact absurd h h45
              | raw h => rw [hq] at h; cases h
              | name h => rw [hq] at h; simp at h
              | version h => rw [hq] at h; cases h
              | address _ _ h => exact absurd h47 h
            have e : applySetter A L q (.data (some s)) = setDataPrefix A L q s := by
              simp only [applySetter, setData, hq, setDataIp, if_neg h45, if_pos h47]
            rcases prefix_asks (A := A) hL (q := q) h45 h47 (fun a n => hA s a n hq rfl) with
              ⟨a, n, lo, hi, h1, h2, h3, h4, h5, h6⟩ | ⟨h6, h7⟩
            · refine ⟨_, e.trans h6, fun q' => ok_iff _ (fun _ => .pref hq h1 h2 h3 h4 h5) fun x hx => ?_⟩
              obtain ⟨a', n', lo', hi', g1, g2, g3, g4, g5, rfl⟩ := other hx
              have al := fun {a n} (h : PrefixText L s a n) => (by
                obtain ⟨-, -, x, y, -, h, -⟩ := h; exact addr_len hL h : a.length = 4 ∨ a.length = 16)
              have al1 := al h1
              have al2 := al g1
              obtain ⟨rfl, rfl⟩ := prefix_unique h1 g1 (by omega) (by omega)
              obtain ⟨rfl, rfl⟩ := bounds_unique h3 h4 g3 g4 h5 g5
              exact ⟨rfl, rfl⟩
            · refine ⟨_, e.trans h6, fun q' => ok_iff _ (fun h => by cases h) fun x hx => ?_⟩
              obtain ⟨a', n', lo', hi', g1, g2, -⟩ := other hx
              exact absurd g2 (h7 _ _ g1)
          · have other : ∀ {x}, Asks L q (.data (some s)) x → ∃ a, loadAddress L s = (a, true) ∧
                x = { q with ip1 := a, ip2 := [], doRrtype := true, rrtype := addressType a } := by
              intro x h
              cases h with
              | address _ _ _ h => exact ⟨_, (loadAddress_iff ..).2 h, rfl⟩
              | pref _ h => exact absurd h.2.1 h47
              | range _ h => exact absurd h h45
              | raw h => rw [hq] at h; cases h
              | name h => rw [hq] at h; simp at h
              | version h => rw [hq] at h; cases h
            refine ⟨setDataAddress L q s, by simp only [applySetter, setData, hq, setDataIp, if_neg h45, if_neg h47], fun q' => ?_⟩
            unfold setDataAddress
            simp only
            split
            · next a hu =>
              exact ok_iff _ (fun h => by cases h) fun x hx => by
                obtain ⟨a', h1, -⟩ := other hx
                rw [hu] at h1; cases h1
            · next a hu =>
              have ha := (loadAddress_iff ..).1 hu
              rw [withIpType_eq (by exact addr_len hL ha)]
              exact ok_iff _ (fun _ => .address hq h45 h47 ha) fun x hx => by
                obtain ⟨a', h1, rfl⟩ := other hx
                rw [hu] at h1; cases h1
                exact ⟨rfl, rfl⟩

/-! ## Instances -/

private theorem lower_wire {ls : Name} (h : legalLabels ls) : (wire ls).map tolower = wire (ls.map (·.map tolower)) := by
  have small : ∀ n : Fin 64, tolower (UInt8.ofNat n.1) = UInt8.ofNat n.1 := by decide +kernel
  have key : (flat ls).map tolower = flat (ls.map (·.map tolower)) := by
    induction ls with
    | nil => rfl
    | cons l ls ih =>
      have hl := h l (by simp)
      have e := small ⟨l.length, by have := hl.2; omega⟩
      have := ih fun m hm => h m (by simp [hm])
      simp only [flat] at this
      simp [flat, this, e]
  have z : tolower 0 = 0 := by decide
  simp [wire, key, z]

theorem exLibs_ok : LibsOk exLibs where
  pton4 s a h := by simp only [exLibs] at h; split at h <;> cases h; rfl
  pton6 s a h := by simp only [exLibs] at h; split at h <;> cases h; rfl
  name s n h := by
    simp only [exLibs] at h
    split at h
    · cases h; exact ⟨[[97]], by decide, rfl⟩
    · split at h
      · cases h; exact ⟨[[66]], by decide, rfl⟩
      · cases h
  lower ls h := by
    refine ⟨ls.map fun l : Bytes => l.map tolower, ⟨?_, ?_⟩, by exact lower_wire h.1⟩
    · intro l hl
      obtain ⟨m, hm, rfl⟩ := List.mem_map.1 hl
      have := h.1 m hm
      simpa [legalLabel] using this
    · rw [← lower_wire h.1]; simpa using h.2
  rrtype s := by
    simp only [exLibs]
    split
    · omega
    · split <;> omega

/-- A prefix and an "any type" that are taken, and arguments that are refused. -/
example : ∃ q, applySetter strictArith exLibs { qType := .rdataIp } (.data (some (lit "10.1.2.3/ +20"))) = .ok (q, true) ∧
    PrefixText exLibs (lit "10.1.2.3/ +20") [10, 1, 2, 3] 20 ∧ ShiftsOk strictArith [10, 1, 2, 3] 20 ∧
    applySetter strictArith exLibs { qType := .rdataIp } (.data (some (lit "10.1.2.3-2001:db8::1")))
      = .ok ({ qType := .rdataIp, ip1 := [10, 1, 2, 3], ip2 := [32, 1, 13, 184, 0, 0, 0, 0, 0, 0, 0, 0, 0, 0, 0, 1] }, false) ∧
    applySetter strictArith exLibs { qType := .rrset, rrtype := 15, doRrtype := true } (.rrtype (some (lit "any-DNSSEC")))
      = .ok ({ qType := .rrset, rrtype := 15 }, true) ∧
    applySetter strictArith exLibs { qType := .version } (.data (some (lit "time_range"))) = .ok ({ qType := .version }, false) ∧
    applySetter strictArith exLibs { qType := .rrset } (.filterParam 2 (some 7) 9) = .ok ({ qType := .rrset }, false) := by
  refine ⟨{ qType := .rdataIp, doRrtype := true, rrtype := 1, ip1 := [10, 1, 0, 0], ip2 := [10, 1, 15, 255] },
    by decide +kernel, ⟨by decide +kernel, by decide +kernel, lit "10.1.2.3", lit " +20", ?_, .inl (by decide +kernel), ?_⟩,
    ⟨fun _ => .inl ⟨rfl, by decide⟩, fun h => absurd h (by decide)⟩, by decide +kernel, by decide +kernel, by decide +kernel,
    by decide +kernel⟩
  · exact ⟨[lit "10.1.2.3", lit " +20"], by decide +kernel, by decide +kernel, by decide +kernel⟩
  · exact ⟨[32], [43], lit "20", by decide +kernel, by simp [Blank], .inr rfl, by decide +kernel, by decide +kernel, by decide +kernel⟩

end Verif.Props
