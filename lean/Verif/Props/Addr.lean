import Verif.Lemmas.Addr
import Verif.Lemmas.Format

/-! # C24: address prefixes -/

namespace Verif.Props
open Verif Verif.Spec

private theorem digit_facts {c : UInt8} (h : IsDigit c) : c ≠ 45 ∧ c ≠ 43 ∧ c ≠ 47 ∧ isSpace c = false ∧
    (48 ≤ c && c ≤ 57) = true := by
  revert h
  refine u8_all (P := fun c => IsDigit c → c ≠ 45 ∧ c ≠ 43 ∧ c ≠ 47 ∧ isSpace c = false ∧ (48 ≤ c && c ≤ 57) = true)
    ?_ c
  decide +kernel

private theorem strtol_digits {ds : Bytes} (hn : ds ≠ []) (hd : ∀ c ∈ ds, IsDigit c) (hv : numval ds < 2 ^ 63) :
    strtolAll ds = some (numval ds : Int) := by
  cases ds with
  | nil => exact absurd rfl hn
  | cons c ds =>
    have hc := digit_facts (hd c (List.mem_cons_self ..))
    have hall : ((c :: ds).all fun c => 48 ≤ c && c ≤ 57) = true :=
      List.all_eq_true.2 fun d h => (digit_facts (hd d h)).2.2.2.2
    unfold strtolAll
    simp only [List.dropWhile_cons, hc.2.2.2.1, Bool.false_eq_true, if_false, if_neg hc.1, if_neg hc.2.1]
    rw [if_neg (by simp [hall])]
    have e : List.foldl (fun a c => 10 * a + (c.toNat - 48)) 0 (c :: ds) = numval (c :: ds) := rfl
    rw [e, if_neg (by omega)]

/-- A text `ADDRESS/LENGTH` reaches the prefix code with its two parts. -/
private theorem setData_slash {A : Arith} {L : Libs} {q : Query} (hq : q.qType = .rdataIp) {addr ds : Bytes}
    (h1 : addr ≠ []) (h2 : 45 ∉ addr) (h3 : 47 ∉ addr) (hn : ds ≠ []) (hd : ∀ c ∈ ds, IsDigit c) :
    setData A L q (some (addr ++ 47 :: ds)) = setDataPrefix A L q (addr ++ 47 :: ds) ∧
    tokens 47 (addr ++ 47 :: ds) = [addr, ds] := by
  constructor
  · simp only [setData, hq, setDataIp]
    rw [if_neg, if_pos]
    · simp
    · intro h
      simp only [List.mem_append, List.mem_cons] at h
      rcases h with h | h | h
      · exact h2 h
      · exact absurd h (by decide)
      · exact (digit_facts (hd _ h)).1 rfl
  · exact tokenLoop_two h3 (fun h => (digit_facts (hd _ h)).2.2.1 rfl) [] h1 hn

/-- C24 (partial: the prefix lengths 0, and in strict C also 1, are missing; see the counterexamples below): an IPv4
query `ADDRESS/LENGTH` selects the range of exactly those addresses that agree with `ADDRESS` in the first `LENGTH`
bits. -/
theorem C24_ip4_partial (A : Arith) (L : Libs) (q : Query) (hq : q.qType = .rdataIp) (addr ds a : Bytes)
    (h1 : addr ≠ []) (h2 : 45 ∉ addr) (h3 : 47 ∉ addr) (hn : ds ≠ []) (hd : ∀ c ∈ ds, IsDigit c)
    (ha : L.pton4 addr = some a) (hl : a.length = 4) (hp : numval ds ≤ 32)
    (hA : A = strictArith ∧ 2 ≤ numval ds ∨ A = x86Arith ∧ 1 ≤ numval ds) :
    ∃ lo hi, setData A L q (some (addr ++ 47 :: ds))
        = .ok ({ q with doRrtype := true, rrtype := 1, ip1 := lo, ip2 := hi }, true) ∧
      lo.length = 4 ∧ hi.length = 4 ∧
      ∀ x : Bytes, x.length = 4 → ((lexLe lo x = true ∧ lexLe x hi = true) ↔ sameBits (numval ds) x a) := by
  obtain ⟨e1, e2⟩ := setData_slash (A := A) (L := L) hq h1 h2 h3 hn hd
  obtain ⟨lo, hi, b1, b2, b3, b4, b5, b6⟩ := ip4_bounds hl (ip4Host_eq hA hp)
  refine ⟨lo, hi, ?_, b3, b4, fun x hx => between_bounds (k := 4) hl b3 b4 hx (by omega) b5 b6⟩
  rw [e1, setDataPrefix, e2]
  simp only [loadAddress, ha, strtol_digits hn hd (by omega)]
  rw [if_neg (by omega), if_pos hl]
  have e : ((numval ds : Int) % 2 ^ 32).toNat = numval ds := by omega
  rw [e, b1, b2]
  rfl

/-- C24: likewise for IPv6, for every prefix length; in strict C the lengths 0 and 64 are missing. -/
theorem C24_ip6 (A : Arith) (L : Libs) (q : Query) (hq : q.qType = .rdataIp) (addr ds a : Bytes)
    (h1 : addr ≠ []) (h2 : 45 ∉ addr) (h3 : 47 ∉ addr) (hn : ds ≠ []) (hd : ∀ c ∈ ds, IsDigit c)
    (ha4 : L.pton4 addr = none) (ha : L.pton6 addr = some a) (hl : a.length = 16) (hp : numval ds ≤ 128)
    (hA : A = strictArith ∧ numval ds ≠ 0 ∧ numval ds ≠ 64 ∨ A = x86Arith) :
    ∃ lo hi, setData A L q (some (addr ++ 47 :: ds))
        = .ok ({ q with doRrtype := true, rrtype := 28, ip1 := lo, ip2 := hi }, true) ∧
      lo.length = 16 ∧ hi.length = 16 ∧
      ∀ x : Bytes, x.length = 16 → ((lexLe lo x = true ∧ lexLe x hi = true) ↔ sameBits (numval ds) x a) := by
  obtain ⟨e1, e2⟩ := setData_slash (A := A) (L := L) hq h1 h2 h3 hn hd
  obtain ⟨lo, hi, b1, b2, b3, b4, b5, b6⟩ := ip6_bounds hl hp hA
  refine ⟨lo, hi, ?_, b3, b4, fun x hx => between_bounds (k := 16) hl b3 b4 hx (by omega) b5 b6⟩
  rw [e1, setDataPrefix, e2]
  simp only [loadAddress, ha4, ha, strtol_digits hn hd (by omega)]
  rw [if_neg (by omega), if_neg (by omega), if_pos hl]
  have e : ((numval ds : Int) % 2 ^ 32).toNat = numval ds := by omega
  rw [e, b1, b2]
  rfl

/-- C24: a prefix length beyond the width of the address is refused and changes nothing. -/
theorem C24_too_long (A : Arith) (L : Libs) (q : Query) (hq : q.qType = .rdataIp) (addr ds : Bytes)
    (h1 : addr ≠ []) (h2 : 45 ∉ addr) (h3 : 47 ∉ addr) (hn : ds ≠ []) (hd : ∀ c ∈ ds, IsDigit c)
    (h : (∃ a, L.pton4 addr = some a ∧ a.length = 4 ∧ 32 < numval ds) ∨
      (L.pton4 addr = none ∧ ∃ a, L.pton6 addr = some a ∧ a.length = 16 ∧ 128 < numval ds)) :
    setData A L q (some (addr ++ 47 :: ds)) = .ok (q, false) := by
  obtain ⟨e1, e2⟩ := setData_slash (A := A) (L := L) hq h1 h2 h3 hn hd
  rw [e1, setDataPrefix, e2]
  have st : strtolAll ds = none ∨ strtolAll ds = some (numval ds : Int) := by
    by_cases hb : numval ds < 2 ^ 63
    · exact .inr (strtol_digits hn hd hb)
    · left
      cases ds with
      | nil => exact absurd rfl hn
      | cons c ds =>
        have hc := digit_facts (hd c (List.mem_cons_self ..))
        unfold strtolAll
        simp only [List.dropWhile_cons, hc.2.2.2.1, Bool.false_eq_true, if_false, if_neg hc.1, if_neg hc.2.1]
        split
        · rfl
        · have e : List.foldl (fun a c => 10 * a + (c.toNat - 48)) 0 (c :: ds) = numval (c :: ds) := rfl
          rw [e, if_pos (by omega)]
  rcases h with ⟨a, ha, hl, hp⟩ | ⟨ha4, a, ha, hl, hp⟩
  · simp only [loadAddress, ha]
    rcases st with st | st <;> simp only [st]
    rw [if_pos (by omega)]
  · simp only [loadAddress, ha4, ha]
    rcases st with st | st <;> simp only [st]
    rw [if_pos (by omega)]

/-- C24, syntax: whatever pieces are put together with slashes, only the non-empty ones count; there must be two of
them. -/
theorem C24_slashes (A : Arith) (L : Libs) (q : Query) (hq : q.qType = .rdataIp) (fs : List Bytes) (h : 2 ≤ fs.length)
    (h1 : ∀ f ∈ fs, 47 ∉ f) (h2 : ∀ f ∈ fs, 45 ∉ f) :
    (∃ addr len, fs.filter (fun f => decide (f ≠ [])) = [addr, len] ∧
      setData A L q (some (([47] : Bytes).intercalate fs)) = setData A L q (some (addr ++ 47 :: len))) ∨
    (fs.filter (fun f => decide (f ≠ []))).length ≠ 2 ∧
      setData A L q (some (([47] : Bytes).intercalate fs)) = .ok (q, false) := by
  have ht := tokens_join fs h1
  have e : setData A L q (some (([47] : Bytes).intercalate fs)) = setDataPrefix A L q (([47] : Bytes).intercalate fs) := by
    simp only [setData, hq, setDataIp]
    rw [if_neg (not_mem_join (by decide) h2), if_pos (mem_join h)]
  have hsub : ∀ f ∈ fs.filter (fun f => decide (f ≠ [])), f ≠ [] ∧ 47 ∉ f ∧ 45 ∉ f := fun f hf => by
    obtain ⟨a, b⟩ := List.mem_filter.1 hf
    exact ⟨by simpa using b, h1 f a, h2 f a⟩
  rw [e]
  unfold setDataPrefix
  rw [ht]
  revert hsub
  generalize fs.filter (fun f => decide (f ≠ [])) = gs
  intro hsub
  match gs, hsub with
  | [], _ => exact .inr ⟨by simp, rfl⟩
  | [_], _ => exact .inr ⟨by simp, rfl⟩
  | [addr, len], hsub =>
    left
    obtain ⟨a1, a2, a3⟩ := hsub addr (by simp)
    obtain ⟨b1, b2, b3⟩ := hsub len (by simp)
    refine ⟨addr, len, rfl, ?_⟩
    have e2 : setData A L q (some (addr ++ 47 :: len)) = setDataPrefix A L q (addr ++ 47 :: len) := by
      simp only [setData, hq, setDataIp]
      rw [if_neg, if_pos (by simp)]
      simp only [List.mem_append, List.mem_cons, not_or]
      exact ⟨a3, by decide, b3⟩
    rw [e2, setDataPrefix, show tokens 47 (addr ++ 47 :: len) = [addr, len] from tokenLoop_two a2 b2 [] a1 b1]
  | _ :: _ :: _ :: _, _ => exact .inr ⟨by simp, rfl⟩

/-- C23, syntax: the same for the dash of a range. -/
theorem C23_dashes (A : Arith) (L : Libs) (q : Query) (hq : q.qType = .rdataIp) (fs : List Bytes) (h : 2 ≤ fs.length)
    (h1 : ∀ f ∈ fs, 45 ∉ f) :
    (∃ lo hi, fs.filter (fun f => decide (f ≠ [])) = [lo, hi] ∧
      setData A L q (some (([45] : Bytes).intercalate fs)) = setData A L q (some (lo ++ 45 :: hi))) ∨
    (fs.filter (fun f => decide (f ≠ []))).length ≠ 2 ∧
      setData A L q (some (([45] : Bytes).intercalate fs)) = .ok (q, false) := by
  have ht := tokens_join fs h1
  have e : setData A L q (some (([45] : Bytes).intercalate fs)) = .ok (setDataRange L q (([45] : Bytes).intercalate fs)) := by
    simp only [setData, hq, setDataIp]
    rw [if_pos (mem_join h)]
  have hsub : ∀ f ∈ fs.filter (fun f => decide (f ≠ [])), f ≠ [] ∧ 45 ∉ f := fun f hf => by
    obtain ⟨a, b⟩ := List.mem_filter.1 hf
    exact ⟨by simpa using b, h1 f a⟩
  rw [e]
  unfold setDataRange
  rw [ht]
  revert hsub
  generalize fs.filter (fun f => decide (f ≠ [])) = gs
  intro hsub
  match gs, hsub with
  | [], _ => exact .inr ⟨by simp, rfl⟩
  | [_], _ => exact .inr ⟨by simp, rfl⟩
  | [lo, hi], hsub =>
    left
    obtain ⟨a1, a2⟩ := hsub lo (by simp)
    obtain ⟨b1, b2⟩ := hsub hi (by simp)
    refine ⟨lo, hi, rfl, ?_⟩
    have e2 : setData A L q (some (lo ++ 45 :: hi)) = .ok (setDataRange L q (lo ++ 45 :: hi)) := by
      simp only [setData, hq, setDataIp]
      rw [if_pos (by simp)]
    rw [e2, setDataRange, show tokens 45 (lo ++ 45 :: hi) = [lo, hi] from tokenLoop_two a2 b2 [] a1 b1]
  | _ :: _ :: _ :: _, _ => exact .inr ⟨by simp, rfl⟩

/-- A library knowing the texts `10.1.2.3` and `2001:db8::1`. -/
def exLibs : Libs where
  pton4 s := if s = lit "10.1.2.3" then some [10, 1, 2, 3] else none
  pton6 s := if s = lit "2001:db8::1" then some [32, 1, 13, 184, 0, 0, 0, 0, 0, 0, 0, 0, 0, 0, 0, 1] else none
  strToName s := if s = lit "a." then some [1, 97, 0] else if s = lit "B." then some [1, 66, 0] else none
  downcase n := n.map tolower
  strToRrtype s := if s = lit "MX" then 15 else if s = lit "A" then 1 else 0

example : setData strictArith exLibs { qType := .rdataIp } (some (lit "10.1.2.3/20"))
    = .ok ({ qType := .rdataIp, doRrtype := true, rrtype := 1, ip1 := [10, 1, 0, 0], ip2 := [10, 1, 15, 255] }, true) := by
  decide +kernel

example : setData strictArith exLibs { qType := .rdataIp } (some (lit "2001:db8::1/65"))
    = .ok ({ qType := .rdataIp, doRrtype := true, rrtype := 28,
             ip1 := [32, 1, 13, 184, 0, 0, 0, 0, 0, 0, 0, 0, 0, 0, 0, 0],
             ip2 := [32, 1, 13, 184, 0, 0, 0, 0, 127, 255, 255, 255, 255, 255, 255, 255] }, true) := by
  decide +kernel

example : setData strictArith exLibs { qType := .rdataIp } (some (lit "10.1.2.3/33"))
    = .ok ({ qType := .rdataIp }, false) := by decide +kernel

/-- Stray slashes are ignored. -/
example : setData strictArith exLibs { qType := .rdataIp } (some (lit "/10.1.2.3//20")) =
    setData strictArith exLibs { qType := .rdataIp } (some (lit "10.1.2.3/20")) ∧
    ([47] : Bytes).intercalate [[], lit "10.1.2.3", [], lit "20"] = lit "/10.1.2.3//20" := by decide +kernel

/-- C24 fails for IPv4 prefixes of length 0: as x86 processors shift, `10.1.2.3/0` denotes the single address
`10.1.2.3` although every address agrees with it in the first 0 bits. -/
theorem C24_ip4_zero_counterexample :
    setData x86Arith exLibs { qType := .rdataIp } (some (lit "10.1.2.3/0"))
      = .ok ({ qType := .rdataIp, doRrtype := true, rrtype := 1, ip1 := [10, 1, 2, 3], ip2 := [10, 1, 2, 3] }, true) ∧
    sameBits 0 [9, 9, 9, 9] [10, 1, 2, 3] ∧ lexLe [10, 1, 2, 3] [9, 9, 9, 9] = false :=
  ⟨by decide +kernel, fun _ h => absurd h (by omega), by decide⟩

/-- C24: the accepted prefix lengths 0 and 1 (IPv4), 0 and 64 (IPv6) are undefined behaviour in C, for every
address. -/
theorem C24_undefined_counterexample (a : Bytes) :
    ip4Lower strictArith a 0 = .fault .badShift ∧ ip4Lower strictArith a 1 = .fault .badShift ∧
    ip6Lower strictArith a 0 = .fault .badShift ∧ ip6Lower strictArith a 64 = .fault .badShift :=
  ⟨rfl, rfl, rfl, rfl⟩

/-- C24: the shifts of the model are those of machine words: by a count within the width both kinds agree with the
shift of bit vectors, a signed one that overflows and a count out of range are undefined in strict C, and x86 takes the
count modulo the width. -/
theorem C24_shifts (v s : Nat) :
    (s < 64 → strictArith.shl64 v s = .ok (BitVec.ofNat 64 v <<< s).toNat) ∧ (64 ≤ s → strictArith.shl64 v s = .fault .badShift) ∧
    x86Arith.shl64 v s = .ok (BitVec.ofNat 64 v <<< (s % 64)).toNat ∧
    (s < 32 → (BitVec.ofNat 32 v).toNat * 2 ^ s < 2 ^ 31 → v < 2 ^ 32 → strictArith.shlInt v s = .ok (BitVec.ofNat 32 v <<< s).toNat) ∧
    (32 ≤ s ∨ 2 ^ 31 ≤ v * 2 ^ s → strictArith.shlInt v s = .fault .badShift) ∧
    x86Arith.shlInt v s = .ok (BitVec.ofNat 32 v <<< (s % 32)).toNat := by
  refine ⟨fun h => ?_, fun h => ?_, ?_, fun h h1 h2 => ?_, fun h => ?_, ?_⟩
  · simp only [strictArith, BitVec.toNat_shiftLeft, BitVec.toNat_ofNat, Nat.shiftLeft_eq, Nat.mod_mul_mod]
    rw [if_neg (by omega)]
  · simp only [strictArith]
    rw [if_pos h]
  · simp only [x86Arith, BitVec.toNat_shiftLeft, BitVec.toNat_ofNat, Nat.shiftLeft_eq, Nat.mod_mul_mod]
  · rw [BitVec.toNat_ofNat, Nat.mod_eq_of_lt h2] at h1
    simp only [strictArith, BitVec.toNat_shiftLeft, BitVec.toNat_ofNat, Nat.shiftLeft_eq, Nat.mod_eq_of_lt h2]
    rw [if_neg (by omega), Nat.mod_eq_of_lt (by omega)]
  · simp only [strictArith]
    rw [if_pos h]
  · simp only [x86Arith, BitVec.toNat_shiftLeft, BitVec.toNat_ofNat, Nat.shiftLeft_eq, Nat.mod_mul_mod]

example : strictArith.shlInt 1 30 = .ok (2 ^ 30) ∧ x86Arith.shlInt 1 32 = .ok 1 ∧ x86Arith.shl64 (2 ^ 63 + 1) 65 = .ok 2 := by
  decide +kernel

end Verif.Props
