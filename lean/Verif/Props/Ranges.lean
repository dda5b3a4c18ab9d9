import Verif.Lemmas.Ip
import Verif.Props.Addr
import Verif.Props.Rdata

/-! # C23: queries for addresses, ranges and prefixes -/

namespace Verif.Props
open Verif Verif.Spec

private theorem addr_key {L t : Nat} (hk : AddrKind L t) {r : RR} (ht : r.rrtype = t) (hl : r.lead = []) :
    r.key = (2 :: r.tail) ++ UInt8.ofNat t :: (wire r.owner.reverse ++ word16 r.tail.length) := by
  rw [rr_key_eq, ht, hk.leb, hl]; simp

private theorem next_type {L t : Nat} (hk : AddrKind L t) (hi : Bytes) :
    ∃ b, incrementKey (2 :: hi ++ [UInt8.ofNat t]) ((2 :: hi ++ [UInt8.ofNat t]).length - 1) =
      .ok (b, 2 :: hi ++ [UInt8.ofNat (t + 1)]) := by
  obtain ⟨c, b, n, k, h1, h2, h3, h4⟩ := increment_shape (key := 2 :: hi ++ [UInt8.ofNat t]) (t := 2) (by decide)
    (p := hi ++ [UInt8.ofNat t]) (rest := []) (by simp)
  refine ⟨true, ?_⟩
  rw [← List.cons_append] at h4
  rw [h4]
  have hne : UInt8.ofNat t ≠ 255 := by rcases hk with ⟨-, rfl⟩ | ⟨-, rfl⟩ <;> decide
  cases n with
  | succ n =>
    rw [List.replicate_succ'] at h1
    have := congrArg List.getLast? h1
    rw [← List.cons_append, List.getLast?_concat, show c ++ b :: (List.replicate n 255 ++ [255]) =
      (c ++ b :: List.replicate n 255) ++ [255] by simp, List.getLast?_concat] at this
    exact absurd (Option.some.inj this) hne
  | zero =>
    have h1' : 2 :: hi ++ [UInt8.ofNat t] = c ++ [b] := h1
    obtain ⟨e1, e2⟩ := List.append_inj' h1' rfl
    have e2 : UInt8.ofNat t = b := by simpa using e2
    have : UInt8.ofNat t + 1 = UInt8.ofNat (t + 1) := by rcases hk with ⟨-, rfl⟩ | ⟨-, rfl⟩ <;> decide
    rw [h3, ← e1, ← e2, this]
    simp

private theorem view_between {L t : Nat} (hk : AddrKind L t) {lo hi : Bytes} (hlo : lo.length = L) (hhi : hi.length = L)
    {r : RR} (ht : r.rrtype = t) (h1 : r.lead = []) (h2 : r.tail.length = L) :
    inView (.range (2 :: lo ++ [UInt8.ofNat t]) (2 :: hi ++ [UInt8.ofNat (t + 1)])) r.key = between lo hi r := by
  rw [addr_key hk ht h1]
  change (lexLe _ _ && lexLe _ _) = (decide _ && decide _)
  congr 1
  · rw [lexLe_ext (x := 2 :: lo) (y := 2 :: r.tail) (by rw [List.length_cons, List.length_cons, hlo, h2])
      (u := UInt8.ofNat t :: (wire r.owner.reverse ++ word16 r.tail.length)) (lexLe_append [UInt8.ofNat t] _),
      show lexLe (2 :: lo) (2 :: r.tail) = lexLe lo r.tail from lexLe_append_left [2] _ _,
      Bool.eq_iff_iff, decide_eq_true_iff, lexLe_addr (by rw [hlo, h2])]
  · rw [lexLe_ext (x := 2 :: r.tail) (y := 2 :: hi) (by rw [List.length_cons, List.length_cons, hhi, h2])
      (lexLe_iff.2 (.inl (by
        rw [lexLt_cons]
        left
        rcases hk with ⟨-, rfl⟩ | ⟨-, rfl⟩ <;> decide))),
      show lexLe (2 :: r.tail) (2 :: hi) = lexLe r.tail hi from lexLe_append_left [2] _ _,
      Bool.eq_iff_iff, decide_eq_true_iff, lexLe_addr (by rw [hhi, h2])]

/-- A query for a range of addresses over any sources that offer the records. -/
theorem rdata_range_from {Ts : List Rec} (hS : Stored Ts) {S : Sources} {L t : Nat} (hk : AddrKind L t)
    (hA : AddrRecords L t Ts) (a : Ask) {lo hi : Bytes} (hO : Offers Ts (a.addresses t lo hi) S)
    (hlo : lo.length = L) (hhi : hi.length = L) (hc : NoneCut L t lo hi Ts) :
    DeliversFrom S (a.addresses t lo hi) (Ts.filter (wantRr (between lo hi) (some t) a.times)) := by
  have hL : 0 < L := by rcases hk with ⟨rfl, -⟩ | ⟨rfl, -⟩ <;> decide
  let P : Plan := { onSource := [(.filterRrtype, filterRrtypeIp t (L + 2))]
                    view := .range (2 :: lo ++ [UInt8.ofNat t]) (2 :: hi ++ [UInt8.ofNat (t + 1)]) }
  have hinit : initKind (a.addresses t lo hi) = .ok P := by
    obtain ⟨b, hb⟩ := next_type hk hi
    have e1 : (2 :: lo ++ [UInt8.ofNat t]).length = L + 2 := by simp [hlo]
    simp only [initKind, Ask.addresses, Ask.query, initRdataIp, Out.assert, hlo, hhi, gt_iff_lt, hL, if_true, Out.ok_bind,
      hk.add, hb, e1, decide_true]
    rfl
  have hview : ∀ k, inView P.view k = true → lexLe (2 :: lo) k = true ∧
      lexLe k (2 :: hi ++ [UInt8.ofNat (t + 1)]) = true := by
    intro k h
    simp only [P, inView, Bool.and_eq_true] at h
    exact ⟨lexLe_trans (lexLe_append _ _) h.1, h.2⟩
  have hcut : ∀ r o, Rec.rr r o ∈ Ts → r.rrtype ≠ t → inView P.view r.key = true → ¬ CutShort L t r.key :=
    fun r o h1 h2 h3 => hc r o h1 h2 (hview _ h3).1 (hview _ h3).2
  have hrr : ∀ x ∈ Ts, inView P.view x.key = true → ∃ r o, x = .rr r o := by
    intro x _ h
    simp only [P, List.cons_append] at h
    exact range_rr h
  refine ⟨P, hinit, fun ls w hw hl => ?_⟩
  refine (offered_direct hS hO (want := wantRr _ (some t) a.times) (by rfl) (keyOnly_one fun _ _ _ => rfl) ?_
    (fun x hx h => by obtain ⟨r, o, rfl⟩ := hrr x hx h; rfl) ?_ ls hl hw).1
  · apply GoodSeq.of_all
    intro f hf
    rw [List.mem_singleton.1 hf]
    exact good_ip hk hS hA hrr hcut
  · intro x hx
    have hxl := hS.legal x hx
    cases hv : inView P.view x.key with
    | false =>
      rw [Bool.false_and]
      cases x with
      | rr r o =>
        simp only [wantRr]
        by_cases ht : r.rrtype = t
        · obtain ⟨h1, h2⟩ := hA r o hx ht
          have hb : between lo hi r = false := by
            rw [← view_between hk hlo hhi ht h1 h2]; exact hv
          simp [hb]
        · simp [Ne.symm ht]
      | _ => rfl
    | true =>
      obtain ⟨r, o, rfl⟩ := hrr x hx hv
      rw [Bool.true_and]
      have hb : (a.addresses t lo hi).bounds = a.times := rfl
      rw [hb, timePass_row hxl.2 rfl, Rec.row, show (Rec.rr r o).key = r.key from rfl]
      simp only [wantRr, P, List.all_cons, List.all_nil, Bool.and_true]
      rw [passes_ip hk hxl.1 _ (fun h => hcut r o hx h hv)]
      simp only [Option.all_some]
      by_cases ht : r.rrtype = t
      · obtain ⟨h1, h2⟩ := hA r o hx ht
        have hb : between lo hi r = true := by
          rw [← view_between hk hlo hhi ht h1 h2]; exact hv
        rw [hb, Bool.true_and]
      · have : (t == r.rrtype) = false := by simpa using Ne.symm ht
        simp [this]

/-- C23 (partial: no record of another type in between has a `CutShort` key; see the counterexamples below): the
query for the range of two addresses delivers exactly the records of the type whose address, as a number, lies in the
range, in key order, each once. -/
theorem C23_range_partial {Ts : List Rec} (hS : Stored Ts) {L t : Nat} (hk : AddrKind L t) (hA : AddrRecords L t Ts)
    (a : Ask) {lo hi : Bytes} (hlo : lo.length = L) (hhi : hi.length = L) (hc : NoneCut L t lo hi Ts) :
    Delivers Ts (a.addresses t lo hi) (Ts.filter (wantRr (between lo hi) (some t) a.times)) :=
  fun sf => rdata_range_from hS hk hA a (offers_plain hS _ sf) hlo hhi hc

/-- A query for one address over any sources that offer the records. -/
theorem rdata_address_from {Ts : List Rec} (hS : Stored Ts) {S : Sources} {L t : Nat} (hk : AddrKind L t)
    (hA : AddrRecords L t Ts) (a : Ask) {ip : Bytes} (hO : Offers Ts (a.addresses t ip []) S)
    (hip : ip.length = L) (hc : NoneCut L t ip ip Ts) :
    DeliversFrom S (a.addresses t ip []) (Ts.filter (wantRr (fun r => r.tail == ip) (some t) a.times)) := by
  have hL : 0 < L := by rcases hk with ⟨rfl, -⟩ | ⟨rfl, -⟩ <;> decide
  let P : Plan := { onSource := [(.filterRrtype, filterRrtypeIp t (L + 2))]
                    view := .pfx (2 :: ip ++ [UInt8.ofNat t]) }
  have hinit : initKind (a.addresses t ip []) = .ok P := by
    have e1 : (2 :: ip ++ [UInt8.ofNat t]).length = L + 2 := by simp [hip]
    simp only [initKind, Ask.addresses, Ask.query, initRdataIp, Out.assert, hip, gt_iff_lt, hL, if_true, Out.ok_bind,
      hk.add, e1, decide_true]
    rfl
  have hcut : ∀ r o, Rec.rr r o ∈ Ts → r.rrtype ≠ t → inView P.view r.key = true → ¬ CutShort L t r.key := by
    intro r o h1 h2 h3
    rw [show P.view = .pfx (2 :: ip ++ [UInt8.ofNat t]) from rfl, inView_pfx] at h3
    obtain ⟨s, hs⟩ := h3
    refine hc r o h1 h2 ?_ ?_
    · rw [← hs, List.append_assoc]; exact lexLe_append _ _
    · rw [← hs, List.append_assoc, lexLe_append_left, List.singleton_append, lexLe_iff, lexLt_cons]
      left; left
      rcases hk with ⟨-, rfl⟩ | ⟨-, rfl⟩ <;> decide
  have hrr : ∀ x ∈ Ts, inView P.view x.key = true → ∃ r o, x = .rr r o := fun x _ h => pfx_rr h
  refine ⟨P, hinit, fun ls w hw hl => ?_⟩
  refine (offered_direct hS hO (want := wantRr _ (some t) a.times) (by rfl) (keyOnly_one fun _ _ _ => rfl) ?_
    (fun x hx h => by obtain ⟨r, o, rfl⟩ := hrr x hx h; rfl) ?_ ls hl hw).1
  · apply GoodSeq.of_all
    intro f hf
    rw [List.mem_singleton.1 hf]
    exact good_ip hk hS hA hrr hcut
  · intro x hx
    have hxl := hS.legal x hx
    refine eq_of_not_rr wantRr_not ?_
    rintro r o rfl
    have hb : (a.addresses t ip []).bounds = a.times := rfl
    rw [hb, timePass_row hxl.2 rfl, Rec.row, show (Rec.rr r o).key = r.key from rfl]
    simp only [wantRr, P, List.all_cons, List.all_nil, Bool.and_true, Option.all_some]
    change _ = (inView P.view r.key && _)
    by_cases ht : r.rrtype = t
    · obtain ⟨h1, h2⟩ := hA r o hx ht
      rw [passes_ip hk hxl.1 _ (fun h => absurd ht h)]
      have : inView P.view r.key = (r.tail == ip) := by
        rw [Bool.eq_iff_iff, show P.view = .pfx (2 :: ip ++ [UInt8.ofNat t]) from rfl, inView_pfx, addr_key hk ht h1,
          beq_iff_eq]
        constructor
        · rintro ⟨s, hs⟩
          rw [List.append_assoc] at hs
          have := (List.append_inj hs (by simp [hip, h2])).1
          exact (List.cons.inj this).2.symm
        · intro h
          rw [h]
          exact ⟨wire r.owner.reverse ++ word16 ip.length, by simp⟩
      rw [this, Bool.and_assoc]
    · have : (t == r.rrtype) = false := by simpa using Ne.symm ht
      rw [this]
      cases hv : inView P.view r.key with
      | false => simp
      | true =>
        rw [passes_ip hk hxl.1 _ (fun h => hcut r o hx h hv), this]
        simp

/-- C23 (partial in the same way): the query for one address. -/
theorem C23_address_partial {Ts : List Rec} (hS : Stored Ts) {L t : Nat} (hk : AddrKind L t) (hA : AddrRecords L t Ts)
    (a : Ask) {ip : Bytes} (hip : ip.length = L) (hc : NoneCut L t ip ip Ts) :
    Delivers Ts (a.addresses t ip []) (Ts.filter (wantRr (fun r => r.tail == ip) (some t) a.times)) :=
  fun sf => rdata_address_from hS hk hA a (offers_plain hS _ sf) hip hc

/-- C23, skipping ahead: at any key of the data records, of whatever bytes, that is not `CutShort`, the filter goes on to
a later key, and no address record lies in between; it gives up only if none follows. -/
theorem C23_skip {L t : Nat} (hk : AddrKind L t) (K : Bytes) (hc : ¬ CutShort L t (2 :: K)) :
    (∀ k, ipSkip t (L + 2) (2 :: K) = .seekTo k → lexLt (2 :: K) k = true ∧
      ∀ r : RR, r.legal → r.rrtype = t → r.lead = [] → r.tail.length = L → lexLt (2 :: K) r.key = true →
        lexLe k r.key = true) ∧
    (ipSkip t (L + 2) (2 :: K) = .stop →
      ∀ r : RR, r.legal → r.rrtype = t → r.lead = [] → r.tail.length = L → lexLt (2 :: K) r.key = false) ∧
    ∀ f, ipSkip t (L + 2) (2 :: K) ≠ .fault f := by
  have h := ipSkip_sound hk (K := 2 :: K) rfl hc
  refine ⟨fun k e => ?_, fun e => ?_, fun f e => ?_⟩ <;> rw [e] at h
  · exact ⟨h.1, fun r h1 h2 h3 h4 h5 => h.2 _ (target_key hk h1 h2 h3 h4) h5⟩
  · exact fun r h1 h2 h3 h4 => h _ (target_key hk h1 h2 h3 h4)
  · exact h

/-- C23: a byte behind the key is read exactly at the `CutShort` keys. -/
theorem C23_overread_iff {L t : Nat} (hk : AddrKind L t) (K : Bytes) :
    ipSkip t (L + 2) (2 :: K) = .fault .oobRead ↔ CutShort L t (2 :: K) := by
  constructor
  · intro h
    by_cases hc : CutShort L t (2 :: K)
    · exact hc
    · exact absurd h ((C23_skip hk K hc).2.2 _)
  · exact ipSkip_cut hk

/-- C23, from the text `ADDRESS` (partial as above). -/
theorem C23_text_address_partial {Ts : List Rec} (hS : Stored Ts) (A : Arith) (Lb : Libs) (a : Ask) {text ip : Bytes}
    {L t : Nat} (hk : AddrKind L t) (hA : AddrRecords L t Ts) (h1 : 45 ∉ text) (h2 : 47 ∉ text)
    (hp : loadAddress Lb text = (ip, true)) (hip : ip.length = L) (hc : NoneCut L t ip ip Ts) :
    ∃ q, setData A Lb (a.query .rdataIp []) (some text) = .ok (q, true) ∧
      Delivers Ts q (Ts.filter (wantRr (fun r => r.tail == ip) (some t) a.times)) := by
  refine ⟨a.addresses t ip [], ?_, C23_address_partial hS hk hA a hip hc⟩
  simp only [setData, Ask.query, setDataIp, if_neg h1, if_neg h2, setDataAddress, hp, withIpType]
  rcases hk with ⟨rfl, rfl⟩ | ⟨rfl, rfl⟩ <;> simp [hip, Ask.addresses, Ask.query]

/-- C23, from the text `ADDRESS-ADDRESS` (partial as above). -/
theorem C23_text_range_partial {Ts : List Rec} (hS : Stored Ts) (A : Arith) (Lb : Libs) (a : Ask) {s1 s2 lo hi : Bytes}
    {L t : Nat} (hk : AddrKind L t) (hA : AddrRecords L t Ts) (h1 : 45 ∉ s1) (h2 : 45 ∉ s2) (n1 : s1 ≠ []) (n2 : s2 ≠ [])
    (p1 : loadAddress Lb s1 = (lo, true)) (p2 : loadAddress Lb s2 = (hi, true)) (hlo : lo.length = L)
    (hhi : hi.length = L) (hc : NoneCut L t lo hi Ts) :
    ∃ q, setData A Lb (a.query .rdataIp []) (some (s1 ++ 45 :: s2)) = .ok (q, true) ∧
      Delivers Ts q (Ts.filter (wantRr (between lo hi) (some t) a.times)) := by
  refine ⟨a.addresses t lo hi, ?_, C23_range_partial hS hk hA a hlo hhi hc⟩
  have ht : tokens 45 (s1 ++ 45 :: s2) = [s1, s2] := tokenLoop_two h1 h2 [] (by simpa using n1) n2
  have hm : (45 : UInt8) ∈ s1 ++ 45 :: s2 := by simp
  simp only [setData, Ask.query, setDataIp, if_pos hm, setDataRange, ht, p1, p2, withIpType]
  rcases hk with ⟨rfl, rfl⟩ | ⟨rfl, rfl⟩ <;> simp [hlo, hhi, Ask.addresses, Ask.query]

private theorem want_prefix {Ts : List Rec} {L t : Nat} (hA : AddrRecords L t Ts) {lo hi : Bytes} (hlo : lo.length = L)
    (hhi : hi.length = L) {want : RR → Bool} (b : Bounds)
    (hb : ∀ r : RR, r.tail.length = L → ((lexLe lo r.tail = true ∧ lexLe r.tail hi = true) ↔ want r = true)) :
    Ts.filter (wantRr (between lo hi) (some t) b) = Ts.filter (wantRr want (some t) b) := by
  apply List.filter_congr
  intro x hx
  cases x with
  | rr r o =>
    simp only [wantRr, Option.all_some]
    by_cases ht : r.rrtype = t
    · obtain ⟨-, h2⟩ := hA r o hx ht
      congr 2
      have := hb r h2
      rw [lexLe_addr (by rw [hlo, h2]), lexLe_addr (by rw [hhi, h2])] at this
      rw [Bool.eq_iff_iff, ← this]
      simp [between]
    · have : (t == r.rrtype) = false := by simpa using Ne.symm ht
      simp [this]
  | _ => rfl

/-- C23, from the text `ADDRESS/LENGTH` with an IPv4 address (partial as above, and as `C24_ip4_partial`): the records
whose address begins with the same `LENGTH` bits. -/
theorem C23_text_prefix4_partial {Ts : List Rec} (hS : Stored Ts) (A : Arith) (Lb : Libs) (q0 : Ask) (addr ds a : Bytes)
    (hA : AddrRecords 4 1 Ts) (h1 : addr ≠ []) (h2 : 45 ∉ addr) (h3 : 47 ∉ addr) (hn : ds ≠ [])
    (hd : ∀ c ∈ ds, IsDigit c) (ha : Lb.pton4 addr = some a) (hl : a.length = 4) (hp : numval ds ≤ 32)
    (hAr : A = strictArith ∧ 2 ≤ numval ds ∨ A = x86Arith ∧ 1 ≤ numval ds)
    (hc : ∀ r o, Rec.rr r o ∈ Ts → r.rrtype ≠ 1 → ¬ CutShort 4 1 r.key)
    (want : RR → Bool) (hw : ∀ r : RR, want r = true ↔ sameBits (numval ds) r.tail a) :
    ∃ q, setData A Lb (q0.query .rdataIp []) (some (addr ++ 47 :: ds)) = .ok (q, true) ∧
      Delivers Ts q (Ts.filter (wantRr want (some 1) q0.times)) := by
  obtain ⟨lo, hi, e, hlo, hhi, hb⟩ := C24_ip4_partial A Lb (q0.query .rdataIp []) rfl addr ds a h1 h2 h3 hn hd ha hl hp hAr
  refine ⟨_, e, ?_⟩
  rw [← want_prefix hA hlo hhi (b := q0.times) (want := want) fun r h => (hb r.tail h).trans (hw r).symm]
  exact C23_range_partial hS (.inl ⟨rfl, rfl⟩) hA q0 hlo hhi (fun r o h1 h2 _ _ => hc r o h1 h2)

/-- C23, from the text `ADDRESS/LENGTH` with an IPv6 address (partial as above, and as `C24_ip6`). -/
theorem C23_text_prefix6_partial {Ts : List Rec} (hS : Stored Ts) (A : Arith) (Lb : Libs) (q0 : Ask) (addr ds a : Bytes)
    (hA : AddrRecords 16 28 Ts) (h1 : addr ≠ []) (h2 : 45 ∉ addr) (h3 : 47 ∉ addr) (hn : ds ≠ [])
    (hd : ∀ c ∈ ds, IsDigit c) (ha4 : Lb.pton4 addr = none) (ha : Lb.pton6 addr = some a) (hl : a.length = 16)
    (hp : numval ds ≤ 128) (hAr : A = strictArith ∧ numval ds ≠ 0 ∧ numval ds ≠ 64 ∨ A = x86Arith)
    (hc : ∀ r o, Rec.rr r o ∈ Ts → r.rrtype ≠ 28 → ¬ CutShort 16 28 r.key)
    (want : RR → Bool) (hw : ∀ r : RR, want r = true ↔ sameBits (numval ds) r.tail a) :
    ∃ q, setData A Lb (q0.query .rdataIp []) (some (addr ++ 47 :: ds)) = .ok (q, true) ∧
      Delivers Ts q (Ts.filter (wantRr want (some 28) q0.times)) := by
  obtain ⟨lo, hi, e, hlo, hhi, hb⟩ :=
    C24_ip6 A Lb (q0.query .rdataIp []) rfl addr ds a h1 h2 h3 hn hd ha4 ha hl hp hAr
  refine ⟨_, e, ?_⟩
  rw [← want_prefix hA hlo hhi (b := q0.times) (want := want) fun r h => (hb r.tail h).trans (hw r).symm]
  exact C23_range_partial hS (.inr ⟨rfl, rfl⟩) hA q0 hlo hhi (fun r o h1 h2 _ _ => hc r o h1 h2)

/-! ## Examples -/

/-- Three A records within 10.1.2.0/29, one beyond, and a TXT record whose data begin with the bytes of such a key. -/
def exAddrs : List Rec :=
  [.rr ⟨[[97], [99, 111, 109]], 1, [], [10, 1, 2, 1]⟩ ⟨5, 9, 1⟩,
   .rr ⟨[[98], [99, 111, 109]], 1, [], [10, 1, 2, 1]⟩ ⟨6, 8, 2⟩,
   .rr ⟨[[97], [99, 111, 109]], 16, [], [10, 1, 2, 1, 1, 200, 5]⟩ ⟨5, 9, 1⟩,
   .rr ⟨[[97], [99, 111, 109]], 1, [], [10, 1, 2, 6]⟩ ⟨5, 9, 1⟩,
   .rr ⟨[[97], [99, 111, 109]], 1, [], [10, 1, 2, 8]⟩ ⟨5, 9, 1⟩]

theorem exAddrs_stored : Stored exAddrs := by
  refine ⟨?_, by decide +kernel⟩
  intro x hx
  simp only [exAddrs, List.mem_cons, List.not_mem_nil, or_false] at hx
  rcases hx with rfl | rfl | rfl | rfl | rfl <;> (simp only [Rec.legal]; decide +kernel)

theorem exAddrs_records : AddrRecords 4 1 exAddrs := by
  intro r o hx ht
  simp only [exAddrs, List.mem_cons, List.not_mem_nil, or_false, Rec.rr.injEq] at hx
  rcases hx with ⟨rfl, rfl⟩ | ⟨rfl, rfl⟩ | ⟨rfl, rfl⟩ | ⟨rfl, rfl⟩ | ⟨rfl, rfl⟩ <;> first | exact ⟨rfl, rfl⟩ | cases ht

theorem exAddrs_uncut : ∀ r o, Rec.rr r o ∈ exAddrs → r.rrtype ≠ 1 → ¬ CutShort 4 1 r.key := by
  intro r o hx ht
  simp only [exAddrs, List.mem_cons, List.not_mem_nil, or_false, Rec.rr.injEq] at hx
  rcases hx with ⟨rfl, rfl⟩ | ⟨rfl, rfl⟩ | ⟨rfl, rfl⟩ | ⟨rfl, rfl⟩ | ⟨rfl, rfl⟩ <;> first | exact absurd rfl ht | skip
  rw [RR.key, ← C23_overread_iff (.inl ⟨rfl, rfl⟩)]
  decide +kernel

example : Delivers exAddrs (Ask.addresses {} 1 [10, 1, 2, 1] [10, 1, 2, 7])
    [.rr ⟨[[97], [99, 111, 109]], 1, [], [10, 1, 2, 1]⟩ ⟨5, 9, 1⟩,
     .rr ⟨[[98], [99, 111, 109]], 1, [], [10, 1, 2, 1]⟩ ⟨6, 8, 2⟩,
     .rr ⟨[[97], [99, 111, 109]], 1, [], [10, 1, 2, 6]⟩ ⟨5, 9, 1⟩] :=
  C23_range_partial exAddrs_stored (.inl ⟨rfl, rfl⟩) exAddrs_records {} rfl rfl
    (fun r o h1 h2 _ _ => exAddrs_uncut r o h1 h2)

example : Delivers exAddrs (Ask.addresses { times := { lastAfter := some 9 } } 1 [10, 1, 2, 1] [])
    [.rr ⟨[[97], [99, 111, 109]], 1, [], [10, 1, 2, 1]⟩ ⟨5, 9, 1⟩] :=
  C23_address_partial exAddrs_stored (.inl ⟨rfl, rfl⟩) exAddrs_records { times := { lastAfter := some 9 } } rfl
    (fun r o h1 h2 _ _ => exAddrs_uncut r o h1 h2)

example : ∃ q, setData strictArith exLibs (Ask.query {} .rdataIp []) (some (lit "10.1.2.3/29")) = .ok (q, true) ∧
    Delivers exAddrs q
    [.rr ⟨[[97], [99, 111, 109]], 1, [], [10, 1, 2, 1]⟩ ⟨5, 9, 1⟩,
     .rr ⟨[[98], [99, 111, 109]], 1, [], [10, 1, 2, 1]⟩ ⟨6, 8, 2⟩,
     .rr ⟨[[97], [99, 111, 109]], 1, [], [10, 1, 2, 6]⟩ ⟨5, 9, 1⟩] := by
  have h := C23_text_prefix4_partial exAddrs_stored strictArith exLibs {} (lit "10.1.2.3") (lit "29") [10, 1, 2, 3]
    exAddrs_records (by decide +kernel) (by decide +kernel) (by decide +kernel) (by decide +kernel)
    (by unfold IsDigit; decide +kernel)
    (by decide +kernel) rfl (by decide +kernel) (.inl ⟨rfl, by decide +kernel⟩) exAddrs_uncut
    (fun r => decide (∀ i < numval (lit "29"), bitAt r.tail i = bitAt [10, 1, 2, 3] i))
    (fun r => decide_eq_true_iff)
  have e : exAddrs.filter (wantRr (fun r => decide (∀ i < numval (lit "29"), bitAt r.tail i = bitAt [10, 1, 2, 3] i))
      (some 1) {}) =
    [.rr ⟨[[97], [99, 111, 109]], 1, [], [10, 1, 2, 1]⟩ ⟨5, 9, 1⟩,
     .rr ⟨[[98], [99, 111, 109]], 1, [], [10, 1, 2, 1]⟩ ⟨6, 8, 2⟩,
     .rr ⟨[[97], [99, 111, 109]], 1, [], [10, 1, 2, 6]⟩ ⟨5, 9, 1⟩] := by decide +kernel
  rw [e] at h
  have e2 : lit "10.1.2.3/29" = lit "10.1.2.3" ++ 47 :: lit "29" := by decide +kernel
  rw [e2]
  exact h

/-- At the TXT record above, whose next byte 200 is no label length, the search is resumed at address 10.1.2.2. -/
example : ipSkip 1 6 (RR.key ⟨[[97], [99, 111, 109]], 16, [], [10, 1, 2, 1, 1, 200, 5]⟩) = .seekTo [2, 10, 1, 2, 2] := by
  decide +kernel

/-! ## Where it fails -/

/-- C23 fails when a record of another type has a key of exactly 1 + 16 bytes, as the TXT record `hello` of `a.com` has:
a query for a range of IPv6 addresses that comes by it reads one byte too many. -/
theorem C23_length_counterexample :
    ∃ (Ts : List Rec) (q : Query), Stored Ts ∧ AddrRecords 16 28 Ts ∧
      q = Ask.addresses {} 28 (5 :: List.replicate 15 0) (6 :: List.replicate 15 0) ∧
      ∀ E, ¬ Delivers Ts q E := by
  refine ⟨[.rr ⟨[[97], [99, 111, 109]], 16, [], [5, 104, 101, 108, 108, 111]⟩ ⟨5, 9, 1⟩], _,
    stored_one (by simp only [Rec.legal]; decide +kernel), ?_, rfl, fun E h => ?_⟩
  · intro r o hx ht
    simp only [List.mem_singleton, Rec.rr.injEq] at hx
    rw [hx.1] at ht; cases ht
  · have h1 := h.first (p := _) rfl rfl
    have h2 : ∀ p, initKind (Ask.addresses {} 28 (5 :: List.replicate 15 0) (6 :: List.replicate 15 0)) = .ok p →
        (queryNext (Ask.addresses {} 28 (5 :: List.replicate 15 0) (6 :: List.replicate 15 0))
          (openQuery [.rr ⟨[[97], [99, 111, 109]], 16, [], [5, 104, 101, 108, 108, 111]⟩ ⟨5, 9, 1⟩]
            (Ask.addresses {} 28 (5 :: List.replicate 15 0) (6 :: List.replicate 15 0)) p)
          (openQuery [.rr ⟨[[97], [99, 111, 109]], 16, [], [5, 104, 101, 108, 108, 111]⟩ ⟨5, 9, 1⟩]
            (Ask.addresses {} 28 (5 :: List.replicate 15 0) (6 :: List.replicate 15 0)) p).start
          (idleWorld 0)).1 = .fault .oobRead := by
      intro p hp
      have := Out.ok.inj hp
      subst this
      decide +kernel
    have h3 := h2 _ rfl
    rw [show (Ask.addresses {} 28 (5 :: List.replicate 15 0) (6 :: List.replicate 15 0)).offset = 0 from rfl] at h1
    rw [h3] at h1
    split at h1 <;> cases h1

/-- C23 fails when the bytes of a record of another type happen to parse as labels up to the end of its key: here the
key of a TXT record is read as the address 0.16.3.5, type A, and the label `0 1 0`, and the byte behind it is read. -/
theorem C23_labels_counterexample :
    ∃ (Ts : List Rec) (q : Query), Stored Ts ∧ AddrRecords 4 1 Ts ∧ q = Ask.addresses {} 1 [0, 16, 3, 5] [] ∧
      ∀ E, ¬ Delivers Ts q E := by
  refine ⟨[.rr ⟨[[5, 1, 3]], 16, [], [0]⟩ ⟨5, 9, 1⟩], _,
    stored_one (by simp only [Rec.legal]; decide +kernel), ?_, rfl, fun E h => ?_⟩
  · intro r o hx ht
    simp only [List.mem_singleton, Rec.rr.injEq] at hx
    rw [hx.1] at ht; cases ht
  · have h1 := h.first (p := _) rfl rfl
    have h2 : ∀ p, initKind (Ask.addresses {} 1 [0, 16, 3, 5] []) = .ok p →
        (queryNext (Ask.addresses {} 1 [0, 16, 3, 5] [])
          (openQuery [.rr ⟨[[5, 1, 3]], 16, [], [0]⟩ ⟨5, 9, 1⟩] (Ask.addresses {} 1 [0, 16, 3, 5] []) p)
          (openQuery [.rr ⟨[[5, 1, 3]], 16, [], [0]⟩ ⟨5, 9, 1⟩] (Ask.addresses {} 1 [0, 16, 3, 5] []) p).start
          (idleWorld 0)).1 = .fault .oobRead := by
      intro p hp
      have := Out.ok.inj hp
      subst this
      decide +kernel
    have h3 := h2 _ rfl
    rw [show (Ask.addresses {} 1 [0, 16, 3, 5] []).offset = 0 from rfl] at h1
    rw [h3] at h1
    split at h1 <;> cases h1

end Verif.Props
