import Verif.Lemmas.DecodeSafe

/-!
# C13–C17, C47: decoding entries and their accessors

Independent specification: the documented layouts in `Verif.Spec.Records`.
-/

namespace Verif.Props
open Verif Verif.Spec

/-- C13: decoding an RRset entry laid out as documented gives back, through the accessors, the owner
name, type, bailiwick, the rdata list in order, times and count. -/
theorem C13_rrset_roundtrip (r : RRset) (o : Obs) (hr : r.legal) (ho : o.legal) :
    ∃ e, entryDecode r.key o.value = .ok e
      ∧ e.getType = 0
      ∧ e.getRrname = .ok (wire r.owner)
      ∧ e.getRrtype = .ok r.rrtype
      ∧ e.getBailiwick = .ok (wire r.bailiwick)
      ∧ e.getNumRdata = .ok r.rdatas.length
      ∧ (∀ i (h : i < r.rdatas.length), e.getRdata i = .ok r.rdatas[i])
      ∧ e.getTimeFirst = .ok o.fixed.first
      ∧ e.getTimeLast = .ok o.fixed.last
      ∧ e.getCount = .ok o.fixed.count := by
  have h : entryDecode r.key o.value = .ok
      { eType := tRRSET, name := wire r.owner, rrtype := r.rrtype, bailiwick := wire r.bailiwick,
        rdatas := r.rdatas, timeFirst := o.fixed.first, timeLast := o.fixed.last,
        count := o.fixed.count } := by
    simp only [entryDecode, RRset.key, UInt8.toNat_zero, tRRSET, if_true]
    rw [decodeRrset_key hr]
    simp only [Out.ok_bind, decodeValTriplet_value _ ho, List.nil_append]
  refine ⟨_, h, rfl, rfl, ?_, rfl, rfl, ?_, rfl, rfl, rfl⟩
  · simp only [Entry.getRrtype, true_or, if_true, Nat.mod_eq_of_lt hr.2.1]
  · intro i hi
    simp only [Entry.getRdata, true_or, if_true]
    rw [if_neg (by omega)]
    simp [Entry.rdataVecValue, hi]

/-- A two-record NS RRset with zero count and zero last-seen time. -/
example : (⟨[[119, 119, 119], [97]], 2, [[97]], [[1, 98, 0], [1, 99, 0]]⟩ : RRset).legal
    ∧ (⟨1000, 0, 0⟩ : Obs).legal
    ∧ (⟨1000, 0, 0⟩ : Obs).fixed = ⟨1000, 1000, 1⟩
    ∧ (⟨[[119, 119, 119], [97]], 2, [[97]], [[1, 98, 0], [1, 99, 0]]⟩ : RRset).key
      = [0, 1, 97, 3, 119, 119, 119, 0, 2, 1, 97, 0, 3, 1, 98, 0, 3, 1, 99, 0] := by decide +kernel

/-- C14: decoding an rdata entry laid out as documented - with the record data in one piece, or with
its leading fields moved behind the owner name - gives back the owner, the type and the complete
record data. -/
theorem C14_rdata_roundtrip (r : RR) (o : Obs) (hr : r.legal) (ho : o.legal) :
    ∃ e, entryDecode r.key o.value = .ok e
      ∧ e.getType = 2
      ∧ e.getRrname = .ok (wire r.owner)
      ∧ e.getRrtype = .ok r.rrtype
      ∧ e.getNumRdata = .ok 1
      ∧ e.getRdata 0 = .ok r.rdata
      ∧ e.getTimeFirst = .ok o.fixed.first
      ∧ e.getTimeLast = .ok o.fixed.last
      ∧ e.getCount = .ok o.fixed.count := by
  have h : entryDecode r.key o.value = .ok
      { eType := tRDATA, name := wire r.owner, rrtype := r.rrtype, rdatas := [r.rdata],
        timeFirst := o.fixed.first, timeLast := o.fixed.last, count := o.fixed.count } := by
    have h2 : (2 : UInt8).toNat = 2 := rfl
    simp only [entryDecode, RR.key, h2, tRRSET, tRRSET_NAME_FWD, tRDATA]
    rw [decodeRdata_key hr]
    simp [decodeValTriplet_value _ ho]
  refine ⟨_, h, rfl, rfl, ?_, rfl, rfl, rfl, rfl, rfl⟩
  simp only [Entry.getRrtype, or_true, if_true, Nat.mod_eq_of_lt hr.2.1]

/-- An MX record `10 b.` of `a.`, stored sliced and unsliced: same decoded record data. -/
example : (⟨[[97]], 15, [0, 10], [1, 98, 0]⟩ : RR).legal ∧ (⟨[[97]], 15, [], [0, 10, 1, 98, 0]⟩ : RR).legal
    ∧ (⟨[[97]], 15, [0, 10], [1, 98, 0]⟩ : RR).key = [2, 1, 98, 0, 15, 1, 97, 0, 0, 10, 3, 0]
    ∧ (⟨[[97]], 15, [0, 10], [1, 98, 0]⟩ : RR).rdata
        = (⟨[[97]], 15, [], [0, 10, 1, 98, 0]⟩ : RR).rdata := by decide +kernel

/-- C15: forward owner-name index entries. -/
theorem C15_fwd_index (n : Name) (v : Bytes) :
    ∃ e, entryDecode (fwdIndexKey n) v = .ok e ∧ e.getType = 1 ∧ e.getRrname = .ok (wire n)
      ∧ e.rrtypeMap = (if v = [] then none else some v) := by
  refine ⟨{ eType := 1, name := wire n, rrtypeMap := if v.length > 0 then some v else none }, rfl, rfl, rfl, ?_⟩
  cases v <;> simp

/-- C15: reverse rdata-name index entries give the name in its usual order. -/
theorem C15_rev_index (n : Name) (v : Bytes) (h : legalName n) :
    ∃ e, entryDecode (revIndexKey n) v = .ok e ∧ e.getType = 3 ∧ e.getRdataName = .ok (wire n)
      ∧ e.rrtypeMap = (if v = [] then none else some v) := by
  refine ⟨{ eType := 3, name := wire n, rrtypeMap := if v.length > 0 then some v else none }, ?_, rfl, rfl, ?_⟩
  · have h3 : (3 : UInt8).toNat = 3 := rfl
    simp only [entryDecode, revIndexKey, h3, tRRSET, tRRSET_NAME_FWD, tRDATA, tRDATA_NAME_REV]
    simp [decodeRdataNameRev, reverseName_wire (legalLabels_reverse.mpr h.1)]
  · cases v <;> simp

/-- C15: time-range metadata. -/
theorem C15_time_range (a b : Nat) (ha : a < 2 ^ 64) (hb : b < 2 ^ 64) :
    ∃ e, entryDecode [254] (leb a ++ leb b) = .ok e ∧ e.getType = 254
      ∧ e.getTimeFirst = .ok a ∧ e.getTimeLast = .ok b := by
  refine ⟨{ eType := 254, timeFirst := a, timeLast := b }, ?_, rfl, rfl, rfl⟩
  have h3 : (254 : UInt8).toNat = 254 := rfl
  simp only [entryDecode, h3, tRRSET, tRRSET_NAME_FWD, tRDATA, tRDATA_NAME_REV, tTIME_RANGE]
  simp [decodeTimeRange, ← pairPack_eq, pairUnpack_pack ha hb]

/-- C15: version metadata. -/
theorem C15_version (t : UInt8) (v : Nat) (hv : v < 2 ^ 32) :
    ∃ e, entryDecode [255, t] (leb v) = .ok e ∧ e.getType = 255
      ∧ e.getVersion = .ok v ∧ e.getVersionType = .ok t.toNat := by
  refine ⟨{ eType := 255, vType := t.toNat, version := v }, ?_, rfl, rfl, rfl⟩
  have h3 : (255 : UInt8).toNat = 255 := rfl
  have h4 : varintDecode32 (leb v) = .ok ((leb v).length, v) := by
    have := decode32_leb hv []
    rwa [List.append_nil] at this
  simp only [entryDecode, h3, tRRSET, tRRSET_NAME_FWD, tRDATA, tRDATA_NAME_REV, tTIME_RANGE,
    tSOURCE_INFO, tVERSION]
  simp [decodeVersion, h4, leb_ne_nil]

/-- C15: source-info text without NUL bytes. -/
theorem C15_source_info (s : Bytes) (v : Bytes) (h : ∀ b ∈ s, b ≠ 0) :
    ∃ e, entryDecode (253 :: s) v = .ok e ∧ e.getType = 253 ∧ e.getSourceInfo = .ok s := by
  refine ⟨{ eType := 253, sourceInfo := some s }, rfl, rfl, ?_⟩
  have : s.takeWhile (· != 0) = s := by
    clear v
    induction s with
    | nil => rfl
    | cons c s ih =>
      rw [List.takeWhile_cons, if_pos (by simpa using h c (List.mem_cons_self ..)),
        ih (fun b hb => h b (List.mem_cons_of_mem _ hb))]
  simp [Entry.getSourceInfo, tSOURCE_INFO, this]

example : legalName [[119], [97, 98]]
    ∧ entryDecode (revIndexKey [[119], [97, 98]]) [1]
      = .ok { eType := 3, name := [1, 119, 2, 97, 98, 0], rrtypeMap := some [1] }
    ∧ entryDecode [255, 2] (leb 300) = .ok { eType := 255, vType := 2, version := 300 } := by
  decide +kernel

/-- C16: two RRsets with the same key are the same RRset. -/
theorem C16_rrset_key_injective (r s : RRset) (hr : r.legal) (hs : s.legal) (h : r.key = s.key) :
    r = s := rrset_key_inj hr hs h

/-- C16: two resource records with the same rdata key are the same record (owner, type and complete
data), whether stored sliced or not. -/
theorem C16_rdata_key_injective (r s : RR) (hr : r.legal) (hs : s.legal) (h : r.key = s.key) :
    r.owner = s.owner ∧ r.rrtype = s.rrtype ∧ r.rdata = s.rdata := by
  rw [rr_key_inj hr hs h]; exact ⟨rfl, rfl, rfl⟩

/-- C16: name-index entries of different names have different keys. -/
theorem C16_index_key_injective (m n : Name) (hm : legalName m) (hn : legalName n) :
    (fwdIndexKey m = fwdIndexKey n → m = n) ∧ (revIndexKey m = revIndexKey n → m = n) := by
  constructor
  · intro h; exact wire_inj hm.1 hn.1 (List.cons.inj h).2
  · intro h
    have := wire_inj (legalLabels_reverse.mpr hm.1) (legalLabels_reverse.mpr hn.1) (List.cons.inj h).2
    exact List.reverse_inj.mp this

/-- C16: entries of different kinds never share a key. -/
theorem C16_kinds_disjoint (r : RRset) (s : RR) (m n : Name) :
    r.key ≠ s.key ∧ r.key ≠ fwdIndexKey m ∧ r.key ≠ revIndexKey n ∧ s.key ≠ fwdIndexKey m
    ∧ s.key ≠ revIndexKey n ∧ fwdIndexKey m ≠ revIndexKey n := by
  simp [RRset.key, RR.key, fwdIndexKey, revIndexKey]

/-- Moving a byte between fields changes the key. -/
example : (⟨[[97]], 2, [[97]], [[1], [2]]⟩ : RRset).legal ∧ (⟨[[97]], 2, [[97]], [[1, 1, 2]]⟩ : RRset).legal
    ∧ (⟨[[97]], 2, [[97]], [[1], [2]]⟩ : RRset).key ≠ (⟨[[97]], 2, [[97]], [[1, 1, 2]]⟩ : RRset).key := by
  decide +kernel

/-- C17 (partial).  The full claim "decoding any key and value never faults" is false, see the
counterexamples below.  What holds: no fault, hence termination and no access outside the key and
value, when
* the key has no run of five bytes ≥ 0x80 and does not end in one (after its type byte);
* names in it are at most 255 bytes long;
* an RRset key does not end right after its owner name; and
* the value contains enough bytes < 0x80: three for RRset and rdata, two for a time range, one for a
  version (or is empty). -/
theorem C17_decode_safe_partial (t : UInt8) (buf val : Bytes)
    (hc : calm buf) (hn : namesFit buf)
    (h0 : t = 0 → ∀ n, parseLabels buf ≠ some (n, []))
    (hv3 : t = 0 ∨ t = 2 → 3 ≤ enders val) (hv2 : t = 254 → 2 ≤ enders val)
    (hv1 : t = 255 → val = [] ∨ 1 ≤ enders val) :
    (entryDecode (t :: buf) val).safe := by
  have ht : ∀ k : Nat, k < 256 → t.toNat = k → t = UInt8.ofNat k := by
    intro k _ h; apply UInt8.toNat_inj.mp; rw [u8_toNat_ofNat]; omega
  have htr : ∀ e : Entry, 3 ≤ enders val → (decodeValTriplet e val).safe := by
    intro e h
    exact safe_bind (tripletUnpack_safe h) (fun _ _ => trivial)
  simp only [entryDecode]
  split
  · rename_i h
    have h := ht 0 (by omega) h
    exact safe_bind (decodeRrset_safe _ hc hn (h0 h)) (fun e _ => htr e (hv3 (.inl h)))
  split
  · trivial
  split
  · rename_i h
    have h := ht 2 (by omega) h
    exact safe_bind (decodeRdata_safe _ hc hn) (fun e _ => htr e (hv3 (.inr h)))
  split
  · exact safe_bind (reverseName_safe _) (fun _ _ => trivial)
  split
  · rename_i h
    have h := ht 254 (by omega) h
    exact safe_bind (pairUnpack_safe (hv2 h)) (fun _ _ => trivial)
  split
  · trivial
  split
  · rename_i h
    have h := ht 255 (by omega) h
    unfold decodeVersion
    split
    · split
      · trivial
      · rename_i h1
        rcases hv1 h with h2 | h2
        · subst h2; simp at h1
        · obtain ⟨n, v, e, _, _⟩ := decode32_enders h2
          rw [e]
          exact safe_ite (safe_ok _) safe_fail
    · trivial
  · trivial

theorem calm_of_small {d : Bytes} (h : ∀ b ∈ d, b.toNat < 128) : calm d := by
  intro i hi
  exact ⟨0, by omega, d[i], by simp [hi], h _ (List.getElem_mem _)⟩

/-- The hypotheses hold for a malformed RRset key (its rdata length announces more than there is),
which is rejected. -/
example : calm [1, 97, 0, 1, 0, 4, 1, 2] ∧ (∀ n, parseLabels [1, 97, 0, 1, 0, 4, 1, 2] ≠ some (n, []))
    ∧ entryDecode [0, 1, 97, 0, 1, 0, 4, 1, 2] [1, 1, 1] = .fail :=
  ⟨calm_of_small (by decide), by
    have : parseLabels [1, 97, 0, 1, 0, 4, 1, 2] = some ([[97]], [1, 0, 4, 1, 2]) := by decide +kernel
    rw [this]; simp, by decide +kernel⟩

/-- C17 counterexample: an RRset key whose rdata length is five 0x80 bytes makes the decoder loop
for ever. -/
theorem C17_diverge_counterexample :
    entryDecode [0, 0, 1, 0, 0x80, 0x80, 0x80, 0x80, 0x80] [1, 1, 1] = .fault .diverge := by
  decide +kernel

/-- C17 counterexample: an RRset key ending after the owner name, an RRset key ending inside a rdata
length, an empty RRset value and an empty time-range value are read past their end. -/
theorem C17_overread_counterexample :
    entryDecode [0, 0] [1, 1, 1] = .fault .oobRead
    ∧ entryDecode [0, 0, 1, 0, 0x80] [1, 1, 1] = .fault .oobRead
    ∧ entryDecode [0, 0, 1, 0] [] = .fault .oobRead
    ∧ entryDecode [254] [] = .fault .oobRead := by decide +kernel

/-- C17 counterexample (given that `wdns_len_uname` does not limit the length of a name): an owner
name of more than 255 bytes is written past the end of a 255-byte stack buffer. -/
theorem C17_overwrite_counterexample :
    entryDecode (0 :: (wire (List.replicate 130 [97]) ++ [1, 0])) [1, 1, 1] = .fault .oobWrite := by
  decide +kernel

/-- An unknown type byte decodes to an entry that reports to be an RRset with a `NULL` name. -/
theorem C17_unknown_type (t : UInt8) (buf val : Bytes) (h : 4 ≤ t.toNat) (h2 : t.toNat ≤ 252) :
    entryDecode (t :: buf) val = .ok {} := by
  simp only [entryDecode]
  rw [if_neg (by simp only [tRRSET]; omega), if_neg (by simp only [tRRSET_NAME_FWD]; omega),
    if_neg (by simp only [tRDATA]; omega), if_neg (by simp only [tRDATA_NAME_REV]; omega),
    if_neg (by simp only [tTIME_RANGE]; omega), if_neg (by simp only [tSOURCE_INFO]; omega),
    if_neg (by simp only [tVERSION]; omega)]

example : entryDecode [7, 1, 2] [] = .ok {} := C17_unknown_type 7 _ _ (by decide) (by decide)

/-- The kinds of entry for which the manual page documents an accessor as valid
(`/repo/man/dnstable_entry.3.txt:106-190`). -/
def documentedKinds : String → List Nat
  | "rrname" => [0, 1, 2]
  | "rrtype" => [0, 2]
  | "bailiwick" => [0]
  | "num_rdata" => [0, 2]
  | "rdata" => [0, 2]
  | "rdata_name" => [3]
  | "time_first" => [0, 2, 254]
  | "time_last" => [0, 2, 254]
  | "count" => [0, 2]
  | "version" => [255]
  | _ => []

/-- C47 (partial: see `C47_rdata_index_counterexample` for the index equal to the number of
elements).  On every entry each accessor succeeds exactly for the documented kinds and otherwise
reports failure; an index below the number of rdata gives that element, an index above it is
reported as failure. -/
theorem C47_accessors_partial (e : Entry) :
    (e.getType ∈ documentedKinds "rrname" → e.getRrname = .ok e.name)
    ∧ (e.getType ∉ documentedKinds "rrname" → e.getRrname = .fail)
    ∧ (e.getType ∈ documentedKinds "rrtype" → ∃ v < 65536, e.getRrtype = .ok v)
    ∧ (e.getType ∉ documentedKinds "rrtype" → e.getRrtype = .fail)
    ∧ (e.getType ∈ documentedKinds "bailiwick" → e.getBailiwick = .ok e.bailiwick)
    ∧ (e.getType ∉ documentedKinds "bailiwick" → e.getBailiwick = .fail)
    ∧ (e.getType ∈ documentedKinds "num_rdata" → e.getNumRdata = .ok e.rdatas.length)
    ∧ (e.getType ∉ documentedKinds "num_rdata" → e.getNumRdata = .fail)
    ∧ (e.getType ∈ documentedKinds "rdata" →
        ∀ i, (∀ h : i < e.rdatas.length, e.getRdata i = .ok e.rdatas[i])
          ∧ (e.rdatas.length < i → e.getRdata i = .fail))
    ∧ (e.getType ∉ documentedKinds "rdata" → ∀ i, e.getRdata i = .fail)
    ∧ (e.getType ∈ documentedKinds "rdata_name" → e.getRdataName = .ok e.name)
    ∧ (e.getType ∉ documentedKinds "rdata_name" → e.getRdataName = .fail)
    ∧ (e.getType ∈ documentedKinds "time_first" → e.getTimeFirst = .ok e.timeFirst)
    ∧ (e.getType ∉ documentedKinds "time_first" → e.getTimeFirst = .fail)
    ∧ (e.getType ∈ documentedKinds "time_last" → e.getTimeLast = .ok e.timeLast)
    ∧ (e.getType ∉ documentedKinds "time_last" → e.getTimeLast = .fail)
    ∧ (e.getType ∈ documentedKinds "count" → e.getCount = .ok e.count)
    ∧ (e.getType ∉ documentedKinds "count" → e.getCount = .fail)
    ∧ (e.getType ∈ documentedKinds "version" → e.getVersion = .ok e.version)
    ∧ (e.getType ∉ documentedKinds "version" → e.getVersion = .fail) := by
  have hr : e.getType ∈ documentedKinds "rdata" →
      ∀ i, (∀ h : i < e.rdatas.length, e.getRdata i = .ok e.rdatas[i])
        ∧ (e.rdatas.length < i → e.getRdata i = .fail) := by
    intro h i
    have h : e.eType = tRRSET ∨ e.eType = tRDATA := by
      simpa [documentedKinds, Entry.getType, tRRSET, tRDATA] using h
    constructor
    · intro hi
      simp only [Entry.getRdata, h, if_true]
      rw [if_neg (by omega)]
      simp [Entry.rdataVecValue, hi]
    · intro hi
      simp only [Entry.getRdata, h, if_true]
      rw [if_pos (by omega)]
  refine ⟨?_, ?_, ?_, ?_, ?_, ?_, ?_, ?_, hr, ?_, ?_, ?_, ?_, ?_, ?_, ?_, ?_, ?_, ?_, ?_⟩ <;>
    simp only [documentedKinds, List.mem_cons, List.not_mem_nil, or_false, Entry.getType,
      Entry.getRrname, Entry.getRrtype, Entry.getBailiwick, Entry.getNumRdata, Entry.getRdata,
      Entry.getRdataName, Entry.getTimeFirst, Entry.getTimeLast, Entry.getCount, Entry.getVersion,
      tRRSET, tRRSET_NAME_FWD, tRDATA, tRDATA_NAME_REV, tTIME_RANGE, tVERSION] <;>
    intro h <;> (try simp [h])
  exact Nat.mod_lt _ (by omega)

example : (⟨1, [1, 97, 0], [], 0, [], some [1], none, 0, 0, 0, 0, 0, false⟩ : Entry).getRrname = .ok [1, 97, 0]
    ∧ (⟨1, [1, 97, 0], [], 0, [], some [1], none, 0, 0, 0, 0, 0, false⟩ : Entry).getCount = .fail := by
  decide

/-- C47 counterexample: asking for the element after the last one aborts the process instead of
reporting failure, on every RRset or rdata entry. -/
theorem C47_rdata_index_counterexample (e : Entry) (h : e.getType ∈ documentedKinds "rdata") :
    e.getRdata e.rdatas.length = .fault .abort := by
  have h : e.eType = tRRSET ∨ e.eType = tRDATA := by
    simpa [documentedKinds, Entry.getType, tRRSET, tRDATA] using h
  simp [Entry.getRdata, h, Entry.rdataVecValue]

/-- In particular on a decoded A RRset with one address. -/
example : (entryDecode [0, 0, 1, 0, 4, 1, 2, 3, 4] [1, 1, 1] >>= fun e => e.getRdata 1) = .fault .abort := by
  decide +kernel

end Verif.Props
