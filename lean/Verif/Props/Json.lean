import Verif.Lemmas.Json
import Verif.Lemmas.QueryCore
import Verif.Props.Calendar
import Verif.Props.Union

/-!
# C39: JSON output of entries

Independent specification: the JSON reader and the members of a record in `Verif.Spec.Json`.
-/

namespace Verif.Props
open Verif Verif.Spec

/-- What is assumed of the DNS library: it makes the given texts, which contain no NUL. -/
structure TextsOk (w : Wdns) (T : Texts) : Prop where
  name : ∀ n, legalName n → w.domainToStr (wire n) = .ok (T.name n) ∧ ∀ c ∈ T.name n, c ≠ 0
  type : ∀ t, t < 65536 → w.rrtypeToStr t = T.type t ∧ ∀ s, T.type t = some s → ∀ c ∈ s, c ≠ 0
  data : ∀ d t, d.length ≤ 65535 → t < 65536 → w.rdataToStr d t = T.data d t ∧ ∀ c ∈ T.data d t, c ≠ 0

/-- The style asked for by the formatter. -/
def styleOf (f : Formatter) : Style := ⟨f.unixDates, f.alwaysArray, f.addRawRdata⟩

/-- What the JSON form can show: in RFC 3339 form times up to the year 9999, type sets other than that of
all types, source descriptions without NUL. -/
def Presentable (st : Style) : Rec → Prop
  | .rrset _ o => st.unix = false → o.fixed.first ≤ endOf9999 ∧ o.fixed.last ≤ endOf9999
  | .rr _ o => st.unix = false → o.fixed.first ≤ endOf9999 ∧ o.fixed.last ≤ endOf9999
  | .fwd _ s => ∀ t, s = some t → ∃ u, u < 65536 ∧ t.has u = false
  | .rev _ s => ∀ t, s = some t → ∃ u, u < 65536 ∧ t.has u = false
  | .timeRange a b => st.unix = false → a ≤ endOf9999 ∧ b ≤ endOf9999
  | .version _ _ => True
  | .sourceInfo s => ∀ c ∈ s, c ≠ 0

/-- The names of the members, by entry type. -/
def memberNames (st : Style) (zone : Bool) (kind : Nat) : List Bytes :=
  let common := [ascii "count", ascii (if zone then "zone_time_first" else "time_first"),
    ascii (if zone then "zone_time_last" else "time_last"), ascii "rrname", ascii "rrtype"]
  let raw := if st.raw then [ascii "rdata_raw"] else []
  if kind = 0 then common ++ [ascii "bailiwick", ascii "rdata"] ++ raw
  else if kind = 2 then common ++ [ascii "rdata"] ++ raw
  else if kind = 1 then [ascii "rrset_name", ascii "rrtypes"]
  else if kind = 3 then [ascii "rdata_name", ascii "rrtypes"]
  else if kind = 254 then [ascii "time_first", ascii "time_last"]
  else if kind = 253 then [ascii "source info"]
  else if kind = 255 then [ascii "entry_type", ascii "version"]
  else []

theorem memberNames_nodup (st : Style) (zone : Bool) (kind : Nat) : (memberNames st zone kind).Nodup := by
  obtain ⟨u, a, r⟩ := st
  unfold memberNames
  cases zone <;> cases r <;> (repeat' split) <;> decide +kernel

theorem bind_ok {α β : Type} {o : Out α} {f : α → Out β} {b : β} (h : (o >>= f) = .ok b) :
    ∃ a, o = .ok a ∧ f a = .ok b := by
  cases o with
  | ok a => exact ⟨a, rfl, h⟩
  | fail => cases h
  | fault g => cases h

theorem entryVals_names {gmtime : Int → Option Tm} {w : Wdns} {f : Formatter} {e : Entry} {vs : List (Bytes × JVal)}
    (h : entryVals gmtime w f e = .ok vs) : vs.map (·.1) = memberNames (styleOf f) e.iszone e.eType := by
  have hc : ∀ {c}, commonVals gmtime w f e = .ok c → c.map (·.1) = [ascii "count",
      ascii (if e.iszone then "zone_time_first" else "time_first"),
      ascii (if e.iszone then "zone_time_last" else "time_last"), ascii "rrname", ascii "rrtype"] := by
    intro c hc
    unfold commonVals at hc
    obtain ⟨_, -, hc⟩ := bind_ok hc
    obtain ⟨_, -, hc⟩ := bind_ok hc
    obtain ⟨_, -, hc⟩ := bind_ok hc
    cases hc
    rfl
  unfold entryVals at h
  unfold memberNames
  dsimp only
  by_cases t0 : e.eType = tRRSET
  · rw [if_pos t0] at h
    rw [if_pos (show e.eType = 0 from t0)]
    obtain ⟨c, h1, h⟩ := bind_ok h
    obtain ⟨r, h2, h⟩ := bind_ok h
    cases h
    rw [List.map_append, hc h1]
    unfold rrsetVals at h2
    obtain ⟨n, -, h2⟩ := bind_ok h2
    dsimp only at h2
    by_cases hr : f.addRawRdata
    · rw [if_pos hr] at h2
      split at h2
      · cases h2
      · cases h2; simp [styleOf, hr, lit, ascii]
    · rw [if_neg hr] at h2
      cases h2; simp [styleOf, hr, lit, ascii]
  rw [if_neg t0] at h
  rw [if_neg (show ¬ e.eType = 0 from t0)]
  by_cases t2 : e.eType = tRDATA
  · rw [if_pos t2] at h
    rw [if_pos (show e.eType = 2 from t2)]
    obtain ⟨c, h1, h⟩ := bind_ok h
    obtain ⟨r, h2, h⟩ := bind_ok h
    cases h
    rw [List.map_append, hc h1]
    unfold rdataVals at h2
    split at h2
    · cases h2
      by_cases hr : f.addRawRdata <;> simp [styleOf, hr, lit, ascii]
    · cases h2
  rw [if_neg t2] at h
  rw [if_neg (show ¬ e.eType = 2 from t2)]
  by_cases t1 : e.eType = tRRSET_NAME_FWD
  · rw [if_pos t1] at h
    rw [if_pos (show e.eType = 1 from t1)]
    obtain ⟨n, -, h⟩ := bind_ok h
    cases h
    rfl
  rw [if_neg t1] at h
  rw [if_neg (show ¬ e.eType = 1 from t1)]
  by_cases t3 : e.eType = tRDATA_NAME_REV
  · rw [if_pos t3] at h
    rw [if_pos (show e.eType = 3 from t3)]
    obtain ⟨n, -, h⟩ := bind_ok h
    cases h
    rfl
  rw [if_neg t3] at h
  rw [if_neg (show ¬ e.eType = 3 from t3)]
  by_cases t4 : e.eType = tTIME_RANGE
  · rw [if_pos t4] at h
    rw [if_pos (show e.eType = 254 from t4)]
    obtain ⟨_, -, h⟩ := bind_ok h
    obtain ⟨_, -, h⟩ := bind_ok h
    cases h
    rfl
  rw [if_neg t4] at h
  rw [if_neg (show ¬ e.eType = 254 from t4)]
  by_cases t5 : e.eType = tSOURCE_INFO
  · rw [if_pos t5] at h
    rw [if_pos (show e.eType = 253 from t5)]
    split at h
    · cases h
    · cases h; rfl
  rw [if_neg t5] at h
  rw [if_neg (show ¬ e.eType = 253 from t5)]
  by_cases t6 : e.eType = tVERSION
  · rw [if_pos t6] at h
    rw [if_pos (show e.eType = 255 from t6)]
    cases h
    rfl
  rw [if_neg t6] at h
  rw [if_neg (show ¬ e.eType = 255 from t6)]
  cases h
  rfl

/-- C39, form.  For every entry whatsoever - with fields in the ranges of their C types - and every
formatter, whatever text the DNS library and `gmtime_r` deliver: if JSON text comes out, it is one JSON
object, with exactly the documented members for the type of entry, in order, each name once. -/
theorem C39_wellformed {numbuf : Bytes} (hb : numbuf.length = 32) (gmtime : Int → Option Tm) (w : Wdns) (f : Formatter)
    (e : Entry) (h1 : e.count < 2 ^ 64) (h2 : e.timeFirst < 2 ^ 64) (h3 : e.timeLast < 2 ^ 64) (h4 : e.version < 2 ^ 64)
    {text : Bytes} (h : entryToJsonFmt numbuf gmtime w f e = .ok text) :
    ∃ vs, readJson text = some (.obj vs) ∧ vs.map (·.1) = memberNames (styleOf f) e.iszone e.eType ∧
      (vs.map (·.1)).Nodup := by
  have hs := same_entry hb gmtime w f h1 h2 h3 h4
  rw [h] at hs
  cases hv : entryVals gmtime w f e with
  | ok vs =>
    rw [hv] at hs
    exact ⟨vs, hs, entryVals_names hv, by rw [entryVals_names hv]; exact memberNames_nodup ..⟩
  | fail => rw [hv] at hs; exact hs.elim
  | fault g => rw [hv] at hs; exact hs.elim

theorem isType_text {w : Wdns} {T : Texts} (hw : TextsOk w T) {t : Nat} (ht : t < 65536) : isType T t (.str (rrtypeText w t)) := by
  obtain ⟨h1, h2⟩ := hw.type t ht
  unfold isType rrtypeText
  rw [Nat.mod_eq_of_lt ht, h1]
  cases hT : T.type t with
  | some s => simp only [cstr_eq (h2 s hT)]
  | none => exact ⟨_, rfl, decimal_numeral t⟩

theorem matches_maps {α β γ : Type} {R : β → γ → Prop} (f : α → β) (g : α → γ) (as : List α)
    (h : ∀ a ∈ as, R (f a) (g a)) : Aligned R (as.map f) (as.map g) := matches_map f g as h

theorem timeVal_ok {gmtime : Int → Option Tm} (hg : GmtimeOk gmtime) (f : Formatter) {t : Nat}
    (ht : f.unixDates = false → t ≤ endOf9999) : ∃ v, timeVal gmtime f t = .ok v ∧ isTime (styleOf f) t v := by
  unfold timeVal isTime
  cases hf : f.unixDates with
  | true => exact ⟨_, rfl, by simp [styleOf, hf]⟩
  | false =>
    obtain ⟨s, hs, hy, he, hr⟩ := rfc_text hg (ht hf)
    simp only [Bool.false_eq_true, if_false, hr]
    refine ⟨_, rfl, ?_⟩
    simp only [styleOf, hf, Bool.false_eq_true, if_false]
    exact ⟨_, rfl, by rw [readStamp_string hs he, hy]⟩

theorem nameVal_ok {w : Wdns} {T : Texts} (hw : TextsOk w T) {n : Name} (hn : legalName n) :
    nameVal w (wire n) = .ok (.str (T.name n)) := by
  obtain ⟨h1, h2⟩ := hw.name n hn
  unfold nameVal
  rw [h1, Out.ok_bind, cstr_eq h2]

theorem matches_app {α β : Type} {R : α → β → Prop} {a1 a2 : List α} {b1 b2 : List β} (h1 : Aligned R a1 b1)
    (h2 : Aligned R a2 b2) : Aligned R (a1 ++ a2) (b1 ++ b2) := by
  induction a1 generalizing b1 with
  | nil => cases b1 with
    | nil => exact h2
    | cons b bs => exact h1.elim
  | cons a as ih => cases b1 with
    | nil => exact h1.elim
    | cons b bs => exact ⟨h1.1, ih h1.2⟩

/-- Member by member. -/
abbrev AlignedWants (vs : List (Bytes × JVal)) (ms : List (Bytes × Want)) : Prop :=
  Aligned (fun m w => m.1 = w.1 ∧ w.2 m.2) vs ms

theorem common_ok {gmtime : Int → Option Tm} (hg : GmtimeOk gmtime) {w : Wdns} {T : Texts} (hw : TextsOk w T)
    (f : Formatter) {e : Entry} {owner : Name} {o : Obs} (h1 : e.name = wire owner) (hn : legalName owner)
    (h2 : e.count = o.fixed.count) (h3 : e.timeFirst = o.fixed.first) (h4 : e.timeLast = o.fixed.last)
    (ht : e.rrtype < 65536) (hp : f.unixDates = false → o.fixed.first ≤ endOf9999 ∧ o.fixed.last ≤ endOf9999) :
    ∃ vs, commonVals gmtime w f e = .ok vs ∧ AlignedWants vs (sighting T (styleOf f) e.iszone owner e.rrtype o) := by
  obtain ⟨a, ha, ha'⟩ := timeVal_ok hg f fun h => (hp h).1
  obtain ⟨z, hz, hz'⟩ := timeVal_ok hg f fun h => (hp h).2
  unfold commonVals
  rw [h3, h4, ha, hz, h1, nameVal_ok hw hn]
  refine ⟨_, rfl, ⟨rfl, ?_⟩, ⟨rfl, ha'⟩, ⟨rfl, hz'⟩, ⟨rfl, rfl⟩, ⟨rfl, isType_text hw ht⟩, trivial⟩
  simp [isNat, h2]

theorem types_ok {w : Wdns} {T : Texts} (hw : TextsOk w T) {s : Option TypeSet} (hs : ∀ t, s = some t → t.wf)
    (hf : ∀ t, s = some t → ∃ u, u < 65536 ∧ t.has u = false) {e : Entry}
    (he : e.rrtypeMap = if Rec.setBytes s = [] then none else some (Rec.setBytes s)) : isTypes T s (typesVal w e) := by
  unfold typesVal
  cases s with
  | none => rw [he]; exact ⟨[], rfl, trivial⟩
  | some s =>
    have hne : s.bytes ≠ [] := bytes_ne_nil (hs s rfl)
    rw [he, Rec.setBytes, if_neg hne]
    simp only
    rw [unionUnpack_wf (hs s rfl) (hf s rfl)]
    refine ⟨_, rfl, matches_maps _ _ _ fun t ht => ?_⟩
    exact isType_text hw (mem_sortedTypes.1 ht).1

theorem kind_ok {e : Entry} {t : UInt8} (he : e.vType = t.toNat) : isKind t (.str (cstr (kindText e))) := by
  unfold kindText
  rw [he]
  cases hs : entryTypeToString t.toNat with
  | some s =>
    have key : ∀ n : Fin 256, ∀ s, entryTypeToString n.val = some s → (n.val, s) ∈ entryTypeNames ∧ cstr s = s := by
      intro n s
      have : ∀ n : Fin 256, (entryTypeToString n.val).all fun s => decide ((n.val, s) ∈ entryTypeNames ∧ cstr s = s) := by
        decide +kernel
      intro h
      have := this n
      rw [h] at this
      simpa using this
    obtain ⟨h1, h2⟩ := key ⟨t.toNat, t.toNat_lt⟩ s hs
    exact .inl ⟨s, h1, by rw [h2]⟩
  | none =>
    refine .inr ⟨?_, decimal (t.toNat % 256), ?_, ?_⟩
    · have key : ∀ n : Fin 256, entryTypeToString n.val = none → ∀ p ∈ entryTypeNames, p.1 ≠ n.val := by decide +kernel
      intro s hm
      exact key ⟨t.toNat, t.toNat_lt⟩ hs _ hm rfl
    · have key : ∀ n : Fin 256, cstr (lit "unknown-" ++ decimal (n.val % 256)) =
        [117, 110, 107, 110, 111, 119, 110, 45] ++ decimal (n.val % 256) := by decide +kernel
      simp only [key ⟨t.toNat, t.toNat_lt⟩]
    · have := t.toNat_lt
      rw [Nat.mod_eq_of_lt (by omega)]
      exact decimal_numeral _

/-- C39 (partial).  The JSON form of the entry decoded from any legal record, flagged as coming from a
zone file or not, under every formatter setting, is one JSON object with exactly the documented members,
which have the values of the record.  Missing: what `Presentable` excludes, see the counterexamples below. -/
theorem C39_members_partial {numbuf : Bytes} (hb : numbuf.length = 32) {gmtime : Int → Option Tm} (hg : GmtimeOk gmtime)
    {w : Wdns} {T : Texts} (hw : TextsOk w T) (f : Formatter) (zone : Bool) (x : Rec) (hx : x.legal)
    (hp : Presentable (styleOf f) x) :
    ∃ e text, entryDecode x.key x.value = .ok e ∧ entryToJsonFmt numbuf gmtime w f (e.setIszone zone) = .ok text ∧
      Shows text (shown T (styleOf f) zone x) := by
  have fin : ∀ e : Entry, e.count < 2 ^ 64 → e.timeFirst < 2 ^ 64 → e.timeLast < 2 ^ 64 → e.version < 2 ^ 64 →
      (∃ vs, entryVals gmtime w f e = .ok vs ∧ AlignedWants vs (shown T (styleOf f) zone x)) →
      ∃ text, entryToJsonFmt numbuf gmtime w f e = .ok text ∧ Shows text (shown T (styleOf f) zone x) := by
    rintro e h1 h2 h3 h4 ⟨vs, hv, hm⟩
    have hs := same_entry hb gmtime w f h1 h2 h3 h4
    rw [hv] at hs
    cases ht : entryToJsonFmt numbuf gmtime w f e with
    | ok text => rw [ht] at hs; exact ⟨text, rfl, vs, hs, hm⟩
    | fail => rw [ht] at hs; exact hs.elim
    | fault g => rw [ht] at hs; exact hs.elim
  have fixed_lt : ∀ o : Obs, o.legal → o.fixed.count < 2 ^ 64 ∧ o.fixed.first < 2 ^ 64 ∧ o.fixed.last < 2 ^ 64 := by
    rintro o ⟨h1, h2, h3⟩
    refine ⟨?_, h1, ?_⟩
    · show (if o.count = 0 then 1 else o.count) < _; split <;> omega
    · show (if o.last = 0 then o.first else o.last) < _; split <;> omega
  suffices h : ∃ text, entryToJsonFmt numbuf gmtime w f (x.entry.setIszone zone) = .ok text ∧
      Shows text (shown T (styleOf f) zone x) by
    obtain ⟨text, h⟩ := h
    exact ⟨_, text, Rec.decode hx, h⟩
  cases x with
  | rrset r o =>
    obtain ⟨hr, ho⟩ := hx
    obtain ⟨l1, l2, l3⟩ := fixed_lt o ho
    obtain ⟨g1, g2, g3, g4⟩ := hr
    refine fin _ l1 l2 l3 (by simp [Rec.entry, Entry.setIszone]) ?_
    obtain ⟨cs, hc, hm⟩ := common_ok hg hw f (e := (Rec.rrset r o).entry.setIszone zone) (owner := r.owner) (o := o)
      rfl g1 rfl rfl rfl g2 hp
    have hd : ∀ d ∈ r.rdatas, isText (T.data d r.rrtype) (dataVal w ((Rec.rrset r o).entry.setIszone zone) d) := by
      intro d hd
      obtain ⟨e1, e2⟩ := hw.data d r.rrtype (g4 d hd) g2
      show JVal.str (cstr (w.rdataToStr d (r.rrtype % 65536))) = _
      rw [Nat.mod_eq_of_lt g2, e1, cstr_eq e2]
    have hl : varintEncode32 r.rrtype = leb r.rrtype := encode32_eq_leb (by omega)
    have h3 : ¬ 3 < (varintEncode32 r.rrtype).length := by
      unfold varintEncode32
      split
      · simp
      split
      · simp
      rw [if_pos (by omega)]; simp
    have hb1 : ∃ rs, rrsetVals w f ((Rec.rrset r o).entry.setIszone zone) = .ok rs ∧ AlignedWants rs
        ([(ascii "bailiwick", isText (T.name r.bailiwick)),
          (ascii "rdata", isList (r.rdatas.map fun d => isText (T.data d r.rrtype)))] ++
          (if (styleOf f).raw then [(ascii "rdata_raw", isList (r.rdatas.map fun d => isHexOf (d ++ leb r.rrtype)))]
            else [])) := by
      unfold rrsetVals
      rw [show ((Rec.rrset r o).entry.setIszone zone).bailiwick = wire r.bailiwick from rfl, nameVal_ok hw g3]
      simp only [Out.ok_bind]
      by_cases hr : f.addRawRdata
      · rw [if_pos hr, if_neg (fun h => h3 h.2), if_pos (show (styleOf f).raw = true from hr)]
        refine ⟨_, rfl, ⟨rfl, rfl⟩, ⟨rfl, _, rfl, matches_maps _ _ _ hd⟩, ⟨rfl, _, rfl, matches_maps _ _ _ fun d hd => ?_⟩, trivial⟩
        refine ⟨_, rfl, ?_⟩
        rw [← hl]
        exact fmtHex_hex _
      · rw [if_neg hr, if_neg (show ¬ (styleOf f).raw = true from hr)]
        exact ⟨_, rfl, ⟨rfl, rfl⟩, ⟨rfl, _, rfl, matches_maps _ _ _ hd⟩, trivial⟩
    obtain ⟨rs, hr, hm'⟩ := hb1
    refine ⟨cs ++ rs, ?_, ?_⟩
    · unfold entryVals
      rw [if_pos (by exact rfl), hc, hr]
      rfl
    · show AlignedWants _ (_ ++ _ ++ _)
      rw [List.append_assoc]
      exact matches_app hm hm'
  | rr r o =>
    obtain ⟨hr, ho⟩ := hx
    obtain ⟨l1, l2, l3⟩ := fixed_lt o ho
    obtain ⟨g1, g2, g4⟩ := hr
    refine fin _ l1 l2 l3 (by simp [Rec.entry, Entry.setIszone]) ?_
    obtain ⟨cs, hc, hm⟩ := common_ok hg hw f (e := (Rec.rr r o).entry.setIszone zone) (owner := r.owner) (o := o)
      rfl g1 rfl rfl rfl g2 hp
    have hd : isText (T.data r.rdata r.rrtype) (dataVal w ((Rec.rr r o).entry.setIszone zone) r.rdata) := by
      obtain ⟨e1, e2⟩ := hw.data r.rdata r.rrtype g4 g2
      show JVal.str (cstr (w.rdataToStr r.rdata (r.rrtype % 65536))) = _
      rw [Nat.mod_eq_of_lt g2, e1, cstr_eq e2]
    have ha : ∀ {w : Want} {v : JVal}, w v → (if (styleOf f).array then isList [w] else w) (arrVal f.alwaysArray v) := by
      intro w v h
      show (if f.alwaysArray then isList [w] else w) _
      unfold arrVal
      split
      · exact ⟨_, rfl, h, trivial⟩
      · exact h
    have hb1 : ∃ rs, rdataVals w f ((Rec.rr r o).entry.setIszone zone) = .ok rs ∧ AlignedWants rs
        ([(ascii "rdata",
        if (styleOf f).array then isList [isText (T.data r.rdata r.rrtype)] else isText (T.data r.rdata r.rrtype))] ++
      (if (styleOf f).raw then [(ascii "rdata_raw", if (styleOf f).array then isList [isHexOf r.rdata] else isHexOf r.rdata)]
        else [])) := by
      refine ⟨_, rfl, ⟨rfl, ha hd⟩, ?_⟩
      by_cases hr : f.addRawRdata
      · rw [if_pos hr, if_pos (show (styleOf f).raw = true from hr)]
        exact ⟨⟨rfl, ha ⟨_, rfl, fmtHex_hex _⟩⟩, trivial⟩
      · rw [if_neg hr, if_neg (show ¬ (styleOf f).raw = true from hr)]
        trivial
    obtain ⟨rs, hr, hm'⟩ := hb1
    refine ⟨cs ++ rs, ?_, ?_⟩
    · unfold entryVals
      rw [if_neg (by show ¬ (2 : Nat) = _; decide), if_pos (by exact rfl), hc, hr]
      rfl
    · show AlignedWants _ (_ ++ _ ++ _)
      rw [List.append_assoc]
      exact matches_app hm hm'
  | fwd n s =>
    refine fin _ (by show 0 < 2 ^ 64; decide) (by show 0 < 2 ^ 64; decide) (by show 0 < 2 ^ 64; decide)
      (by show 0 < 2 ^ 64; decide) ?_
    refine ⟨[(lit "rrset_name", .str (T.name n)), (lit "rrtypes", typesVal w ((Rec.fwd n s).entry.setIszone zone))], ?_,
      ⟨rfl, rfl⟩, ⟨rfl, types_ok hw hx.2 hp rfl⟩, trivial⟩
    unfold entryVals
    rw [if_neg (by show ¬ (1 : Nat) = _; decide), if_neg (by show ¬ (1 : Nat) = _; decide), if_pos (by exact rfl),
      show ((Rec.fwd n s).entry.setIszone zone).name = wire n from rfl, nameVal_ok hw hx.1]
    rfl
  | rev n s =>
    refine fin _ (by show 0 < 2 ^ 64; decide) (by show 0 < 2 ^ 64; decide) (by show 0 < 2 ^ 64; decide)
      (by show 0 < 2 ^ 64; decide) ?_
    refine ⟨[(lit "rdata_name", .str (T.name n)), (lit "rrtypes", typesVal w ((Rec.rev n s).entry.setIszone zone))], ?_,
      ⟨rfl, rfl⟩, ⟨rfl, types_ok hw hx.2 hp rfl⟩, trivial⟩
    unfold entryVals
    rw [if_neg (by show ¬ (3 : Nat) = _; decide), if_neg (by show ¬ (3 : Nat) = _; decide),
        if_neg (by show ¬ (3 : Nat) = _; decide), if_pos (by exact rfl),
      show ((Rec.rev n s).entry.setIszone zone).name = wire n from rfl, nameVal_ok hw hx.1]
    rfl
  | timeRange a b =>
    refine fin _ (by show 0 < 2 ^ 64; decide) hx.1 hx.2 (by show 0 < 2 ^ 64; decide) ?_
    obtain ⟨u, hu, hu'⟩ := timeVal_ok hg f (t := a) fun h => (hp h).1
    obtain ⟨v, hv, hv'⟩ := timeVal_ok hg f (t := b) fun h => (hp h).2
    refine ⟨[(lit "time_first", u), (lit "time_last", v)], ?_, ⟨rfl, hu'⟩, ⟨rfl, hv'⟩, trivial⟩
    unfold entryVals
    rw [if_neg (by show ¬ (254 : Nat) = _; decide), if_neg (by show ¬ (254 : Nat) = _; decide),
        if_neg (by show ¬ (254 : Nat) = _; decide), if_neg (by show ¬ (254 : Nat) = _; decide), if_pos (by exact rfl),
      show ((Rec.timeRange a b).entry.setIszone zone).timeFirst = a from rfl, hu,
      show ((Rec.timeRange a b).entry.setIszone zone).timeLast = b from rfl, hv]
    rfl
  | version t v =>
    have hx : v < 2 ^ 32 := hx
    refine fin _ (by show 0 < 2 ^ 64; decide) (by show 0 < 2 ^ 64; decide) (by show 0 < 2 ^ 64; decide)
      (by show v < 2 ^ 64; omega) ?_
    refine ⟨[(lit "entry_type", .str (cstr (kindText ((Rec.version t v).entry.setIszone zone)))), (lit "version", .num v)], ?_,
      ⟨rfl, kind_ok rfl⟩, ⟨rfl, rfl⟩, trivial⟩
    unfold entryVals
    rw [if_neg (by show ¬ (255 : Nat) = _; decide), if_neg (by show ¬ (255 : Nat) = _; decide),
        if_neg (by show ¬ (255 : Nat) = _; decide), if_neg (by show ¬ (255 : Nat) = _; decide),
        if_neg (by show ¬ (255 : Nat) = _; decide), if_neg (by show ¬ (255 : Nat) = _; decide), if_pos (by exact rfl)]
    rfl
  | sourceInfo s =>
    refine fin _ (by show 0 < 2 ^ 64; decide) (by show 0 < 2 ^ 64; decide) (by show 0 < 2 ^ 64; decide)
      (by show 0 < 2 ^ 64; decide) ?_
    refine ⟨[(lit "source info", .str (cstr s))], ?_, ⟨rfl, ?_⟩, trivial⟩
    · unfold entryVals
      rw [if_neg (by show ¬ (253 : Nat) = _; decide), if_neg (by show ¬ (253 : Nat) = _; decide),
        if_neg (by show ¬ (253 : Nat) = _; decide), if_neg (by show ¬ (253 : Nat) = _; decide),
        if_neg (by show ¬ (253 : Nat) = _; decide), if_pos (by exact rfl)]
      rfl
    · show JVal.str (cstr s) = .str s
      rw [cstr_eq hp]

/-! ## Examples and counterexamples -/

/-- A library that writes names and data in hexadecimal and knows the name of one type. -/
def exWdns : Wdns :=
  ⟨fun b => .ok (fmtHexStr [] b), fun t => if t = 1 then some [65] else none, fun d _ => fmtHexStr [] d⟩

/-- Its texts. -/
def exTexts : Texts :=
  ⟨fun n => fmtHexStr [] (wire n), fun t => if t = 1 then some [65] else none, fun d _ => fmtHexStr [] d⟩

theorem fmtHex_nonul (bs : Bytes) : ∀ c ∈ fmtHexStr [] bs, c ≠ 0 := by
  intro c hc h0
  have h := cstr_hex bs
  unfold cstr at h
  have hk : ∀ l : Bytes, l.takeWhile (· != 0) = l → ∀ x ∈ l, x ≠ 0 := by
    intro l
    induction l with
    | nil => intro _ x hx; cases hx
    | cons a l ih =>
      intro hl x hx
      rw [List.takeWhile_cons] at hl
      split at hl
      · next ha =>
        rcases List.mem_cons.1 hx with rfl | hx
        · simpa using ha
        · exact ih (List.cons.inj hl).2 x hx
      · cases hl
  exact hk _ h c hc h0

theorem exTexts_ok : TextsOk exWdns exTexts where
  name n _ := ⟨rfl, fmtHex_nonul _⟩
  type t _ := ⟨rfl, fun s h => by
    change (if t = 1 then some [65] else none) = some s at h
    split at h
    · cases h; decide
    · cases h⟩
  data d _ _ _ := ⟨rfl, fmtHex_nonul _⟩

/-- An RRset with two addresses. -/
def exJsonRec : Rec := .rrset ⟨[[99]], 1, [], [[192, 0, 2, 1], [192, 0, 2, 2]]⟩ ⟨10, 20, 3⟩

/-- The hypotheses of `C39_members_partial` are met under every setting. -/
example (f : Formatter) : ∃ gmtime, GmtimeOk gmtime ∧ TextsOk exWdns exTexts ∧ exJsonRec.legal ∧
    Presentable (styleOf f) exJsonRec := by
  obtain ⟨g, hg⟩ := gmtime_exists
  exact ⟨g, hg, exTexts_ok, ⟨by unfold RRset.legal legalName; decide +kernel, by unfold Obs.legal; decide +kernel⟩, fun _ => by decide +kernel⟩

/-- The text of that RRset, with raw data. -/
example : entryToJsonFmt (List.replicate 32 0) (fun _ => none) exWdns { addRawRdata := true } exJsonRec.entry =
    .ok (ascii ("{\"count\":3,\"time_first\":10,\"time_last\":20,\"rrname\":\"016300\",\"rrtype\":\"A\"," ++
      "\"bailiwick\":\"00\",\"rdata\":[\"c0000201\",\"c0000202\"]," ++
      "\"rdata_raw\":[\"c000020101\",\"c000020201\"]}")) := by decide +kernel

/-- A record of a type without a name, as an array. -/
example : entryToJsonFmt (List.replicate 32 0) (fun _ => none) exWdns { alwaysArray := true }
      ((Rec.rr ⟨[[99]], 4660, [], [7]⟩ ⟨10, 20, 3⟩).entry.setIszone true) =
    .ok (ascii ("{\"count\":3,\"zone_time_first\":10,\"zone_time_last\":20,\"rrname\":\"016300\"," ++
      "\"rrtype\":\"TYPE4660\",\"rdata\":[\"07\"]}")) := by decide +kernel

/-- C39, `dnstable_entry_to_json`: it shows the entry as a new formatter does, in the documented style: times as
seconds, a single data of a record as a string, no raw data.  Same restriction as `C39_members_partial`. -/
theorem C39_plain_partial {numbuf : Bytes} (hb : numbuf.length = 32) {gmtime : Int → Option Tm} (hg : GmtimeOk gmtime)
    {w : Wdns} {T : Texts} (hw : TextsOk w T) (zone : Bool) (x : Rec) (hx : x.legal) (hp : Presentable ⟨true, false, false⟩ x) :
    ∃ e text, entryDecode x.key x.value = .ok e ∧ entryToJson numbuf gmtime w (e.setIszone zone) = .ok text ∧
      entryToJsonFmt numbuf gmtime w {} (e.setIszone zone) = .ok text ∧ Shows text (shown T ⟨true, false, false⟩ zone x) := by
  obtain ⟨e, text, h1, h2, h3⟩ := C39_members_partial hb hg hw {} zone x hx hp
  exact ⟨e, text, h1, h2, h2, h3⟩

/-- C39 fails for types that do not fit three varint bytes: an entry that `dnstable_entry_decode` accepts,
shown with raw data, makes the code write behind its three byte buffer (`/repo/dnstable/entry.c:430-431`). -/
theorem C39_raw_overflow_counterexample :
    (do let e ← entryDecode [0, 0, 128, 128, 128, 1, 0, 1, 7] [10, 20, 3]
        entryToJsonFmt (List.replicate 32 0) (fun _ => none) exWdns { addRawRdata := true } e) = .fault .oobWrite := by
  decide +kernel

/-- C39 fails for types above 65535: a decoded entry of type 65537 is shown as one of type 1. -/
theorem C39_type_truncated_counterexample :
    (do let e ← entryDecode [0, 0, 129, 128, 4, 0, 1, 7] [10, 20, 3]
        Out.ok e.rrtype) = .ok 65537 ∧
    (do let e ← entryDecode [0, 0, 129, 128, 4, 0, 1, 7] [10, 20, 3]
        entryToJson (List.replicate 32 0) (fun _ => none) exWdns e) =
      .ok (ascii ("{\"count\":3,\"time_first\":10,\"time_last\":20,\"rrname\":\"00\",\"rrtype\":\"A\"," ++
        "\"bailiwick\":\"00\",\"rdata\":[\"07\"]}")) := by
  decide +kernel

/-- C39 fails for source descriptions with a NUL, which are cut short, and - JSON being UTF-8, in which no
byte 255 occurs - for source descriptions that are not UTF-8. -/
theorem C39_source_counterexample :
    (do let e ← entryDecode [253, 97, 0, 98] []
        entryToJson (List.replicate 32 0) (fun _ => none) exWdns e) = .ok (ascii "{\"source info\":\"a\"}") ∧
    (do let e ← entryDecode [253, 255] []
        entryToJson (List.replicate 32 0) (fun _ => none) exWdns e) =
      .ok (ascii "{\"source info\":\"" ++ [255] ++ ascii "\"}") := by
  decide +kernel

/-- C39 fails for the set of all types: what is shown is not a list of types. -/
theorem C39_full_set_counterexample : (Rec.fwd [] (some fullSet)).legal ∧
    ∃ e, entryDecode (Rec.fwd [] (some fullSet)).key (Rec.fwd [] (some fullSet)).value = .ok e ∧
      entryToJson (List.replicate 32 0) (fun _ => none) exWdns e =
        .ok (ascii "{\"rrset_name\":\"00\",\"rrtypes\":[\"<failure>\"]}") := by
  have hl : (Rec.fwd [] (some fullSet)).legal := ⟨by unfold legalName; decide +kernel, fun t h => by cases h; exact fullSet_wf⟩
  refine ⟨hl, _, Rec.decode hl, ?_⟩
  have hm : fmtRrtypesUnionJson exWdns (ascii "{\"rrset_name\":\"00\"") (Rec.fwd [] (some fullSet)).entry =
      ascii "{\"rrset_name\":\"00\",\"rrtypes\":[\"<failure>\"]" := by
    unfold fmtRrtypesUnionJson
    rw [show (Rec.fwd [] (some fullSet)).entry.rrtypeMap = some fullSet.bytes from
      (if_neg (bytes_ne_nil fullSet_wf) : (if fullSet.bytes = [] then none else some fullSet.bytes) = _)]
    simp only
    rw [unionUnpack_full fullSet_wf fullSet_has]
    decide +kernel
  have hn : nameJson exWdns (ascii "{\"rrset_name\":") [0] = .ok (ascii "{\"rrset_name\":\"00\"") := by decide +kernel
  have ht : ((Rec.fwd [] (some fullSet)).entry).eType = 1 := rfl
  unfold entryToJson entryToJsonFmt
  rw [ht]
  simp only [tRRSET, tRDATA, tRRSET_NAME_FWD]
  unfold jsonIndex
  have hd : (JBuf.decl ⟨[123], 0⟩ "rrset_name") = ⟨ascii "{\"rrset_name\":", 1⟩ := by decide +kernel
  simp only [Nat.one_ne_zero, show ¬ (1 : Nat) = 2 by decide, or_self, if_false, if_true, Out.ok_bind, hd]
  rw [show ((Rec.fwd [] (some fullSet)).entry).name = [0] from rfl, hn]
  simp only [Out.ok_bind, JBuf.with, hm]
  decide +kernel

/-- C39 and the manual (`/repo/man/dnstable_entry.3.txt:253-263`): by default an RRset with one data is to
have it "rendered as a single string", and the raw data are to come in a "raw_rdata field".  Neither holds. -/
theorem C39_manual_counterexample :
    (Rec.rrset ⟨[[99]], 1, [], [[192, 0, 2, 1]]⟩ ⟨10, 20, 3⟩).legal ∧
    entryToJsonFmt (List.replicate 32 0) (fun _ => none) exWdns { addRawRdata := true }
        (Rec.rrset ⟨[[99]], 1, [], [[192, 0, 2, 1]]⟩ ⟨10, 20, 3⟩).entry =
      .ok (ascii ("{\"count\":3,\"time_first\":10,\"time_last\":20,\"rrname\":\"016300\",\"rrtype\":\"A\"," ++
        "\"bailiwick\":\"00\",\"rdata\":[\"c0000201\"],\"rdata_raw\":[\"c000020101\"]}")) ∧
    ∀ (st : Style) (zone : Bool) (kind : Nat), ascii "raw_rdata" ∉ memberNames st zone kind := by
  refine ⟨⟨by unfold RRset.legal legalName; decide +kernel, by unfold Obs.legal; decide +kernel⟩, by decide +kernel, ?_⟩
  rintro ⟨u, a, r⟩ zone kind
  unfold memberNames
  cases zone <;> cases r <;> (repeat' split) <;> decide +kernel

end Verif.Props
