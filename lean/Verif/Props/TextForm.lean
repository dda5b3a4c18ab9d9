import Verif.Lemmas.TextForm
import Verif.Props.Json

/-!
# C51: text output of entries

Independent specification: the lines of a record and the reader of zone file text in `Verif.Spec.TextForm`.
-/

namespace Verif.Props
open Verif Verif.Spec

/-- What is assumed of the locale: numbers are written with their digits and at most six further bytes; dates as
the format says. -/
structure LocaleOk (L : Locale) : Prop where
  grouped : ∀ n < 2 ^ 64, amount n (L.grouped n) ∧ (L.grouped n).length ≤ 26 ∧ NoNl (L.grouped n)
  clock : ∀ t : Stamp, t.Valid → t.seconds ≤ endOf9999 → readClock (L.clock t.tm) = some t.seconds

/-- What is assumed of the texts of the DNS library beyond `TextsOk`: they stay on one line, names and types contain
no blank, and names do not start like a comment (all of these are escaped in presentation format). -/
structure LineTexts (T : Texts) : Prop where
  name : ∀ n, legalName n → NoNl (T.name n) ∧ (32 : UInt8) ∉ T.name n ∧ (T.name n).head? ≠ some 59
  type : ∀ t, t < 65536 → ∀ s, T.type t = some s → NoNl s ∧ (32 : UInt8) ∉ s
  data : ∀ d t, d.length ≤ 65535 → t < 65536 → NoNl (T.data d t)

/-- What the text form can show: times up to the year 9999, type sets other than that of all types, source
descriptions without NUL and newline. -/
def Printable : Rec → Prop
  | .rrset _ o => o.fixed.first ≤ endOf9999 ∧ o.fixed.last ≤ endOf9999
  | .rr _ _ => True
  | .fwd _ s => ∀ t, s = some t → ∃ u, u < 65536 ∧ t.has u = false
  | .rev _ s => ∀ t, s = some t → ∃ u, u < 65536 ∧ t.has u = false
  | .timeRange a b => a ≤ endOf9999 ∧ b ≤ endOf9999
  | .version _ _ => True
  | .sourceInfo s => ∀ c ∈ s, c ≠ 0 ∧ c ≠ 10

section
variable {gmtime : Int → Option Tm} {L : Locale} {w : Wdns} {T : Texts}

theorem grouped_ok (hL : LocaleOk L) {n : Nat} (hn : n < 2 ^ 64) (u : Bytes) : fmtUint64 L u n = .ok (u ++ L.grouped n) := by
  have h := (hL.grouped n hn).2.1
  unfold fmtUint64
  simp only
  rw [if_pos (by omega), List.take_of_length_le (l := L.grouped n) (by omega), List.take_left']
  rfl

theorem timeText_ok (hg : GmtimeOk gmtime) (hL : LocaleOk L) (unix : Bool) {v : Nat} (hv : v ≤ endOf9999) :
    ∃ s, (∀ u, timeText gmtime L unix u v = .ok (u ++ s)) ∧ timeForm (!unix) v s ∧ NoNl s := by
  cases unix with
  | false =>
    obtain ⟨t, ht, hs, hy, h⟩ := rfc_text hg hv
    have hr := readStamp_string ht hy
    refine ⟨stampString t, fun u => ?_, ?_, readStamp_nonl hr⟩
    · show fmtRfc3339Time gmtime u v = _
      unfold fmtRfc3339Time; rw [h]; rfl
    · show readStamp _ = _
      rw [hr, hs]
  | true =>
    obtain ⟨t, ht, hs⟩ := stamp_exists v
    have hT : toTimeT v = (t.seconds : Int) := by
      unfold toTimeT endOf9999 at *
      rw [if_pos (by omega), hs]
    have hr := hL.clock t ht (by omega)
    obtain ⟨h1, h2⟩ := readClock_nonl hr
    refine ⟨L.clock t.tm, fun u => ?_, ?_, h1⟩
    · show Out.ok (fmtTime gmtime L u v) = _
      unfold fmtTime
      rw [hT, hg t ht (by omega)]
      simp only [h2]
      rw [if_pos (by decide), if_pos (by decide), ← h2, List.take_length]
    · show readClock _ = _
      rw [hr, hs]

theorem nameText (hw : TextsOk w T) {n : Name} (hn : legalName n) :
    w.domainToStr (wire n) = .ok (T.name n) ∧ cstr (T.name n) = T.name n :=
  ⟨(hw.name n hn).1, cstr_eq (hw.name n hn).2⟩

theorem typeText (hw : TextsOk w T) (hT : LineTexts T) {t : Nat} (ht : t < 65536) :
    typeForm T t (rrtypeText w t) ∧ NoNl (rrtypeText w t) ∧ (32 : UInt8) ∉ rrtypeText w t := by
  obtain ⟨h1, h2⟩ := hw.type t ht
  unfold typeForm rrtypeText
  rw [Nat.mod_eq_of_lt ht, h1]
  cases hs : T.type t with
  | some s => simp only [cstr_eq (h2 s hs)]; exact ⟨trivial, hT.type t ht s hs⟩
  | none =>
    have hd := decimal_numeral t
    have e : lit "TYPE" = [84, 89, 80, 69] := by decide
    refine ⟨⟨_, rfl, hd⟩, ?_, ?_⟩
    · simp only [NoNl, e, List.mem_append, not_or]
      exact ⟨by decide, numeral_nonl hd⟩
    · simp only [e, List.mem_append, not_or]
      refine ⟨by decide, fun hm => ?_⟩
      have := hd.digits _ hm
      revert this; decide

theorem dataText (hw : TextsOk w T) {d : Bytes} {t : Nat} (hd : d.length ≤ 65535) (ht : t < 65536) :
    cstr (w.rdataToStr d (t % 65536)) = T.data d t := by
  obtain ⟨e1, e2⟩ := hw.data d t hd ht
  rw [Nat.mod_eq_of_lt ht, e1, cstr_eq e2]

theorem line_ok (hw : TextsOk w T) (hT : LineTexts T) {n : Name} (hn : legalName n) {t : Nat} (ht : t < 65536) {d : Bytes}
    (hd : d.length ≤ 65535) : Written (recordLine T n t d) (lineOf w (T.name n) t d) ∧ NoNl (lineOf w (T.name n) t d) := by
  obtain ⟨h1, h2, -⟩ := typeText hw hT ht
  unfold lineOf
  rw [(nameText hw hn).2, dataText hw hd ht]
  refine ⟨written_cons rfl (written_cons rfl (written_cons h1 (written_cons rfl (written_one rfl)))), ?_⟩
  have h3 := (hT.name n hn).1
  have h4 := hT.data d t hd ht
  simp only [NoNl, List.mem_append, not_or] at *
  exact ⟨h3, by decide, h2, by decide, h4⟩

theorem lines_ok (hw : TextsOk w T) (hT : LineTexts T) {n : Name} (hn : legalName n) {t : Nat} (ht : t < 65536)
    (ds : List Bytes) (hd : ∀ d ∈ ds, d.length ≤ 65535) :
    HasLines ((ds.map (lineOf w (T.name n) t)).flatMap (· ++ [10])) (ds.map (recordLine T n t)) := by
  induction ds with
  | nil => exact ⟨[], rfl, by simp, trivial⟩
  | cons d ds ih =>
    obtain ⟨h1, h2⟩ := line_ok hw hT hn ht (hd d (by simp))
    exact hasLines_append (t := lineOf w (T.name n) t d ++ [10]) (ls := [_]) (hasLines_one h1 h2)
      (ih fun x hx => hd x (List.mem_cons_of_mem _ hx))

theorem union_ok (hw : TextsOk w T) (hT : LineTexts T) {n : Name} (hn : legalName n) {s : Option TypeSet}
    (hs : ∀ t, s = some t → t.wf) (hf : ∀ t, s = some t → ∃ u, u < 65536 ∧ t.has u = false) {e : Entry}
    (hm : e.rrtypeMap = if Rec.setBytes s = [] then none else some (Rec.setBytes s)) (tail : String)
    (ht : NoNl (ascii tail)) :
    HasLines (fmtRrtypesUnion w (T.name n) e ++ (ascii tail ++ [10])) [indexLine T n s tail] := by
  have h0 := (hT.name n hn).1
  unfold fmtRrtypesUnion indexLine
  cases s with
  | none =>
    rw [hm, show Rec.setBytes (none : Option TypeSet) = [] from rfl, if_pos rfl]
    have := hasLines_one (s := T.name n ++ (lit " RRtypes=[" ++ (lit "] " ++ ascii tail)))
      (l := [exactly (T.name n), exactly (ascii " RRtypes=["), exactly (ascii "] "), exactly (ascii tail)])
      (written_cons rfl (written_cons rfl (written_cons rfl (written_one rfl)))) (by
        simp only [NoNl, List.mem_append, not_or] at *
        exact ⟨h0, by decide, by decide, ht⟩)
    simpa using this
  | some s =>
    have hne : s.bytes ≠ [] := bytes_ne_nil (hs s rfl)
    rw [hm, Rec.setBytes, if_neg hne]
    simp only
    rw [unionUnpack_wf (hs s rfl) (hf s rfl)]
    simp only
    rw [typesText_eq w _ _ _ 0 (by simp)]
    have hty : ∀ t ∈ sortedTypes (fun t => s.has t), _ := fun t ht => typeText hw hT (mem_sortedTypes.1 ht).1
    have := hasLines_one (s := (T.name n ++ lit " RRtypes=[") ++
        ((([32] : Bytes).intercalate ((sortedTypes fun t => s.has t).map (rrtypeText w))) ++ (lit "] " ++ ascii tail)))
      (written_append (fs := [exactly (T.name n), exactly (ascii " RRtypes=[")]) (written_cons rfl (written_one rfl))
        (written_append (written_types _ fun t ht => (hty t ht).1)
          (written_append (fs := [exactly (ascii "] ")]) (gs := [exactly (ascii tail)]) (written_one rfl) (written_one rfl)))) (by
        have := nonl_intercalate ((sortedTypes fun t => s.has t).map (rrtypeText w)) (by
          intro x hx
          obtain ⟨t, ht, rfl⟩ := List.mem_map.1 hx
          exact (hty t ht).2.1)
        simp only [NoNl, List.mem_append, not_or] at *
        exact ⟨⟨h0, by decide⟩, this, by decide, ht⟩)
    simpa using this

theorem kindText_ok {t : UInt8} {e : Entry} (he : e.vType = t.toNat) :
    kindForm t (versionType e) ∧ NoNl (versionType e) := by
  unfold versionType
  rw [he]
  cases hs : entryTypeToString t.toNat with
  | some s =>
    have key : ∀ n : Fin 256, ∀ s, entryTypeToString n.val = some s →
        (n.val, s) ∈ entryTypeNames ∧ cstr s = s ∧ (10 : UInt8) ∉ s := by
      intro n s
      have : ∀ n : Fin 256, (entryTypeToString n.val).all fun s =>
          decide ((n.val, s) ∈ entryTypeNames ∧ cstr s = s ∧ (10 : UInt8) ∉ s) := by decide +kernel
      intro h
      have := this n
      rw [h] at this
      simpa using this
    obtain ⟨h1, h2, h3⟩ := key ⟨t.toNat, t.toNat_lt⟩ s hs
    simp only [h2]
    exact ⟨.inl h1, h3⟩
  | none =>
    refine ⟨.inr ⟨?_, decimal_numeral _⟩, numeral_nonl (decimal_numeral _)⟩
    have key : ∀ n : Fin 256, entryTypeToString n.val = none → ∀ p ∈ entryTypeNames, p.1 ≠ n.val := by decide +kernel
    intro s hm
    exact key ⟨t.toNat, t.toNat_lt⟩ hs _ hm rfl

/-- C51 (partial).  The text form of the entry decoded from any legal record, flagged as coming from a zone file or
not, with dates in either form, consists of exactly the documented lines, which state the values of the record.
Missing: what `Printable` excludes, see the counterexamples below. -/
theorem C51_lines_partial (hg : GmtimeOk gmtime) (hL : LocaleOk L) (hw : TextsOk w T) (hT : LineTexts T)
    (numbuf : Bytes) (f : Formatter) (zone : Bool) (x : Rec) (hx : x.legal) (hp : Printable x) :
    ∃ e text, entryDecode x.key x.value = .ok e ∧
      entryFormat numbuf gmtime L w (f.setOutputFormat false) (e.setIszone zone) = .ok text ∧
      HasLines text (textLines T (!f.unixDates) zone x) := by
  suffices h : ∃ text, entryToTextFmt gmtime L w f.unixDates (x.entry.setIszone zone) = .ok text ∧
      HasLines text (textLines T (!f.unixDates) zone x) by
    obtain ⟨text, h⟩ := h
    exact ⟨_, text, Rec.decode hx, h⟩
  generalize f.unixDates = unix
  unfold entryToTextFmt
  simp only
  cases x with
  | rrset r o =>
    obtain ⟨⟨g1, g2, g3, g4⟩, ho⟩ := hx
    obtain ⟨a, ha, ha', ha''⟩ := timeText_ok hg hL unix hp.1
    obtain ⟨z, hz, hz', hz''⟩ := timeText_ok hg hL unix hp.2
    have hc : o.fixed.count < 2 ^ 64 := by
      obtain ⟨h1, h2, h3⟩ := ho
      show (if o.count = 0 then 1 else o.count) < _; split <;> omega
    obtain ⟨b1, b2⟩ := nameText hw g3
    obtain ⟨n1, n2⟩ := nameText hw g1
    rw [if_pos (by exact rfl)]
    unfold textRrset
    rw [show ((Rec.rrset r o).entry.setIszone zone).bailiwick = wire r.bailiwick from rfl, b1]
    simp only [Out.ok_bind]
    rw [show ((Rec.rrset r o).entry.setIszone zone).count = o.fixed.count from rfl, grouped_ok hL hc]
    simp only [Out.ok_bind]
    rw [show ((Rec.rrset r o).entry.setIszone zone).timeFirst = o.fixed.first from rfl, ha]
    simp only [Out.ok_bind]
    rw [show ((Rec.rrset r o).entry.setIszone zone).timeLast = o.fixed.last from rfl, hz]
    simp only [Out.ok_bind]
    rw [show ((Rec.rrset r o).entry.setIszone zone).name = wire r.owner from rfl, n1]
    simp only [Out.ok_bind]
    rw [recordsLoop_eq, b2, show ((Rec.rrset r o).entry.setIszone zone).iszone = zone from rfl,
      show ((Rec.rrset r o).entry.setIszone zone).rrtype = r.rrtype from rfl,
      show ((Rec.rrset r o).entry.setIszone zone).rdatas = r.rdatas from rfl]
    refine ⟨_, rfl, ?_⟩
    have hb := (hT.name _ g3).1
    have hct := hL.grouped _ hc
    have h1 := hasLines_one (s := lit ";;  bailiwick: " ++ T.name r.bailiwick)
      (l := [exactly (ascii ";;  bailiwick: "), exactly (T.name r.bailiwick)]) (written_cons rfl (written_one rfl)) (by
        simp only [NoNl, List.mem_append, not_or] at *; exact ⟨by decide, hb⟩)
    have h2 := hasLines_one (s := lit ";;      count: " ++ L.grouped o.fixed.count)
      (l := [exactly (ascii ";;      count: "), amount o.fixed.count]) (written_cons rfl (written_one hct.1)) (by
        have := hct.2.2
        simp only [NoNl, List.mem_append, not_or] at *; exact ⟨by decide, this⟩)
    have h3 := hasLines_one (s := lit (if zone then ";; first seen in zone file: " else ";; first seen: ") ++ a)
      (l := [exactly (ascii (if zone then ";; first seen in zone file: " else ";; first seen: ")), timeForm (!unix) o.fixed.first])
      (written_cons rfl (written_one ha')) (by
        simp only [NoNl, List.mem_append, not_or] at *; exact ⟨by cases zone <;> decide, ha''⟩)
    have h4 := hasLines_one (s := lit (if zone then ";;  last seen in zone file: " else ";;  last seen: ") ++ z)
      (l := [exactly (ascii (if zone then ";;  last seen in zone file: " else ";;  last seen: ")), timeForm (!unix) o.fixed.last])
      (written_cons rfl (written_one hz')) (by
        simp only [NoNl, List.mem_append, not_or] at *; exact ⟨by cases zone <;> decide, hz''⟩)
    have h := hasLines_append h1 (hasLines_append h2 (hasLines_append h3 (hasLines_append h4
      (lines_ok hw hT g1 g2 r.rdatas g4))))
    have e1 : lit "\n;;      count: " = 10 :: lit ";;      count: " := by decide
    have e2 : lit "\n;; first seen in zone file: " = 10 :: lit ";; first seen in zone file: " := by decide
    have e3 : lit "\n;; first seen: " = 10 :: lit ";; first seen: " := by decide
    have e4 : lit "\n;;  last seen in zone file: " = 10 :: lit ";;  last seen in zone file: " := by decide
    have e5 : lit "\n;;  last seen: " = 10 :: lit ";;  last seen: " := by decide
    rw [e1, e2, e3, e4, e5]
    cases zone
    · simpa [textLines] using h
    · simpa [textLines] using h
  | rr r o =>
    obtain ⟨⟨g1, g2, g4⟩, ho⟩ := hx
    obtain ⟨n1, n2⟩ := nameText hw g1
    rw [if_neg (by show ¬ (2 : Nat) = _; decide), if_pos (by exact rfl)]
    unfold textRdata
    rw [show ((Rec.rr r o).entry.setIszone zone).rdatas = [r.rdata] from rfl]
    simp only
    rw [show ((Rec.rr r o).entry.setIszone zone).name = wire r.owner from rfl, n1]
    simp only [Out.ok_bind]
    rw [recordText_eq, show ((Rec.rr r o).entry.setIszone zone).rrtype = r.rrtype from rfl]
    obtain ⟨h1, h2⟩ := line_ok hw hT g1 g2 g4
    exact ⟨_, rfl, hasLines_one h1 h2⟩
  | fwd n s =>
    obtain ⟨n1, n2⟩ := nameText hw hx.1
    rw [if_neg (by show ¬ (1 : Nat) = _; decide), if_neg (by show ¬ (1 : Nat) = _; decide), if_pos (by exact rfl)]
    unfold textIndex
    rw [show ((Rec.fwd n s).entry.setIszone zone).name = wire n from rfl, n1]
    simp only [Out.ok_bind]
    rw [n2, List.nil_append]
    refine ⟨_, rfl, ?_⟩
    have e : lit " ;; rrset name fwd\n" = ascii " ;; rrset name fwd" ++ [10] := by decide
    rw [e]
    exact union_ok hw hT hx.1 hx.2 hp rfl _ (by decide)
  | rev n s =>
    obtain ⟨n1, n2⟩ := nameText hw hx.1
    rw [if_neg (by show ¬ (3 : Nat) = _; decide), if_neg (by show ¬ (3 : Nat) = _; decide),
      if_neg (by show ¬ (3 : Nat) = _; decide), if_pos (by exact rfl)]
    unfold textIndex
    rw [show ((Rec.rev n s).entry.setIszone zone).name = wire n from rfl, n1]
    simp only [Out.ok_bind]
    rw [n2, List.nil_append]
    refine ⟨_, rfl, ?_⟩
    have e : lit " ;; rdata name rev\n" = ascii " ;; rdata name rev" ++ [10] := by decide
    rw [e]
    exact union_ok hw hT hx.1 hx.2 hp rfl _ (by decide)
  | timeRange a b =>
    obtain ⟨u, hu, hu', hu''⟩ := timeText_ok hg hL unix hp.1
    obtain ⟨v, hv, hv', hv''⟩ := timeText_ok hg hL unix hp.2
    rw [if_neg (by show ¬ (254 : Nat) = _; decide), if_neg (by show ¬ (254 : Nat) = _; decide),
      if_neg (by show ¬ (254 : Nat) = _; decide), if_neg (by show ¬ (254 : Nat) = _; decide), if_pos (by exact rfl)]
    unfold textTimes
    simp only
    rw [show ((Rec.timeRange a b).entry.setIszone zone).timeFirst = a from rfl, hu]
    simp only [Out.ok_bind]
    rw [show ((Rec.timeRange a b).entry.setIszone zone).timeLast = b from rfl, hv]
    simp only [Out.ok_bind]
    refine ⟨_, rfl, ?_⟩
    have h1 := hasLines_one (s := lit ";; Earliest time_first: " ++ u)
      (l := [exactly (ascii ";; Earliest time_first: "), timeForm (!unix) a]) (written_cons rfl (written_one hu')) (by
        simp only [NoNl, List.mem_append, not_or] at *; exact ⟨by decide, hu''⟩)
    have h2 := hasLines_one (s := lit ";; Latest time_last: " ++ v)
      (l := [exactly (ascii ";; Latest time_last: "), timeForm (!unix) b]) (written_cons rfl (written_one hv')) (by
        simp only [NoNl, List.mem_append, not_or] at *; exact ⟨by decide, hv''⟩)
    have e1 : lit "\n;; Latest time_last: " = 10 :: lit ";; Latest time_last: " := by decide
    rw [e1]
    simpa [textLines] using hasLines_append h1 h2
  | version t v =>
    rw [if_neg (by show ¬ (255 : Nat) = _; decide), if_neg (by show ¬ (255 : Nat) = _; decide),
      if_neg (by show ¬ (255 : Nat) = _; decide), if_neg (by show ¬ (255 : Nat) = _; decide),
      if_neg (by show ¬ (255 : Nat) = _; decide), if_neg (by show ¬ (255 : Nat) = _; decide), if_pos (by exact rfl)]
    obtain ⟨h1, h2⟩ := kindText_ok (t := t) (e := (Rec.version t v).entry.setIszone zone) rfl
    refine ⟨_, rfl, ?_⟩
    rw [show ((Rec.version t v).entry.setIszone zone).version = v from rfl]
    have h := hasLines_one (s := lit ";; Version type " ++ (versionType ((Rec.version t v).entry.setIszone zone) ++ (lit ": " ++ decimal v)))
      (l := [exactly (ascii ";; Version type "), kindForm t, exactly (ascii ": "), numberForm v])
      (written_cons rfl (written_cons h1 (written_cons rfl (written_one (decimal_numeral v))))) (by
        have := numeral_nonl (decimal_numeral v)
        simp only [NoNl, List.mem_append, not_or] at *; exact ⟨by decide, h2, by decide, this⟩)
    simpa [textLines] using h
  | sourceInfo s =>
    rw [if_neg (by show ¬ (253 : Nat) = _; decide), if_neg (by show ¬ (253 : Nat) = _; decide),
      if_neg (by show ¬ (253 : Nat) = _; decide), if_neg (by show ¬ (253 : Nat) = _; decide),
      if_neg (by show ¬ (253 : Nat) = _; decide), if_pos (by exact rfl)]
    refine ⟨_, rfl, ?_⟩
    have h := hasLines_one (s := lit ";; source info: " ++ cstr s)
      (l := [exactly (ascii ";; source info: "), exactly s]) (written_cons rfl (written_one (cstr_eq fun c hc => (hp c hc).1))) (by
        rw [cstr_eq fun c hc => (hp c hc).1]
        simp only [NoNl, List.mem_append, not_or]; exact ⟨by decide, fun hm => (hp _ hm).2 rfl⟩)
    simpa [textLines] using h

/-- C51, `dnstable_entry_to_text`: dates as date, time and offset.  Same restriction. -/
theorem C51_plain_partial (hg : GmtimeOk gmtime) (hL : LocaleOk L) (hw : TextsOk w T) (hT : LineTexts T)
    (zone : Bool) (x : Rec) (hx : x.legal) (hp : Printable x) :
    ∃ e text, entryDecode x.key x.value = .ok e ∧ entryToText gmtime L w (e.setIszone zone) = .ok text ∧
      HasLines text (textLines T false zone x) :=
  C51_lines_partial hg hL hw hT [] {} zone x hx hp

/-- C39, the formatter: told to make JSON it makes the object of `C39_members_partial`; so does a new one.  Same
restriction. -/
theorem C39_formatter_partial {numbuf : Bytes} (hb : numbuf.length = 32) (hg : GmtimeOk gmtime) (hw : TextsOk w T)
    (f : Formatter) (hf : f = {} ∨ ∃ f', f = Formatter.setOutputFormat f' true) (zone : Bool) (x : Rec) (hx : x.legal)
    (hp : Presentable (styleOf f) x) :
    ∃ e text, entryDecode x.key x.value = .ok e ∧ entryFormat numbuf gmtime L w f (e.setIszone zone) = .ok text ∧
      Shows text (shown T (styleOf f) zone x) := by
  obtain ⟨e, text, h1, h2, h3⟩ := C39_members_partial hb hg hw f zone x hx hp
  refine ⟨e, text, h1, ?_, h3⟩
  unfold entryFormat
  rw [if_pos, h2]
  rcases hf with rfl | ⟨f', rfl⟩ <;> rfl

/-! ## Reading the text as a zone file -/

theorem typeForm_noblank (hT : LineTexts T) {t : Nat} (ht : t < 65536) {x : Bytes} (h : typeForm T t x) :
    (32 : UInt8) ∉ x := by
  unfold typeForm at h
  cases hs : T.type t with
  | some s => rw [hs] at h; simp only at h; rw [h]; exact (hT.type t ht s hs).2
  | none =>
    rw [hs] at h
    obtain ⟨d, rfl, hd⟩ := h
    simp only [List.mem_append, not_or]
    refine ⟨by decide, fun hm => ?_⟩
    have := hd.digits _ hm
    revert this; decide

theorem readRecord_line (hT : LineTexts T) {n : Name} (hn : legalName n) {t : Nat} (ht : t < 65536) {d s : Bytes}
    (h : Written (recordLine T n t d) s) :
    s.head? ≠ some 59 ∧ ∃ ty, typeForm T t ty ∧ readRecord s = some (T.name n, ascii "IN", ty, T.data d t) := by
  obtain ⟨_, _, rfl, rfl, _, _, rfl, rfl, ty, _, rfl, hty, _, _, rfl, rfl, _, _, rfl, rfl, rfl⟩ := h
  obtain ⟨-, n2, n3⟩ := hT.name n hn
  refine ⟨?_, ty, hty, ?_⟩
  · cases hN : T.name n with
    | nil => show some (32 : UInt8) ≠ some 59; decide
    | cons c cs =>
      rw [hN] at n3
      exact n3
  · have e : T.name n ++ (ascii " IN " ++ (ty ++ (ascii " " ++ (T.data d t ++ [])))) =
        T.name n ++ 32 :: (ascii "IN" ++ 32 :: (ty ++ 32 :: T.data d t)) := by
      rw [show ascii " IN " = 32 :: (ascii "IN" ++ [32]) by decide, show ascii " " = [32] by decide]
      simp
    unfold readRecord
    rw [e, field_eq n2]
    simp only [Option.bind_eq_bind, Option.bind_some]
    rw [field_eq (by decide)]
    simp only [Option.bind_some]
    rw [field_eq (typeForm_noblank hT ht hty)]
    rfl

theorem readZone_records (hT : LineTexts T) {n : Name} (hn : legalName n) {t : Nat} (ht : t < 65536) {text : Bytes}
    {ls : List (List Form)} {ds : List Bytes} (hc : ∀ l ∈ ls, ∃ c fs, l = exactly (59 :: c) :: fs)
    (h : HasLines text (ls ++ ds.map (recordLine T n t))) :
    Aligned (fun d r => ∃ ty, typeForm T t ty ∧ r = some (T.name n, ascii "IN", ty, T.data d t)) ds (readZone text) := by
  obtain ⟨ss, rfl, h1, h2⟩ := h
  unfold readZone
  rw [splitLines_eq _ h1]
  clear h1
  induction ls generalizing ss with
  | nil =>
    rw [List.nil_append] at h2
    induction ds generalizing ss with
    | nil => cases ss with
      | nil => trivial
      | cons => exact h2.elim
    | cons d ds ih => cases ss with
      | nil => exact h2.elim
      | cons s ss =>
        obtain ⟨a, b⟩ := readRecord_line hT hn ht h2.1
        rw [List.filter_cons_of_pos (by simpa using a), List.map_cons]
        obtain ⟨ty, b1, b2⟩ := b
        exact ⟨⟨ty, b1, b2⟩, ih ss h2.2⟩
  | cons l ls ih => cases ss with
    | nil => exact h2.elim
    | cons s ss =>
      obtain ⟨c, fs, rfl⟩ := hc l (by simp)
      obtain ⟨⟨_, _, rfl, rfl, -⟩, h3⟩ := h2
      rw [List.filter_cons_of_neg (by simp)]
      exact ih (fun l hl => hc l (List.mem_cons_of_mem _ hl)) ss h3

/-- C51, zone file.  Read as a zone file, the text of an RRset states exactly its records, in order; everything else
in it is comment.  Same restriction. -/
theorem C51_zone_partial (hg : GmtimeOk gmtime) (hL : LocaleOk L) (hw : TextsOk w T) (hT : LineTexts T)
    (numbuf : Bytes) (f : Formatter) (zone : Bool) (r : RRset) (o : Obs) (hx : (Rec.rrset r o).legal)
    (hp : Printable (.rrset r o)) :
    ∃ e text, entryDecode (Rec.rrset r o).key (Rec.rrset r o).value = .ok e ∧
      entryFormat numbuf gmtime L w (f.setOutputFormat false) (e.setIszone zone) = .ok text ∧
      Aligned (fun d line => ∃ ty, typeForm T r.rrtype ty ∧ line = some (T.name r.owner, ascii "IN", ty, T.data d r.rrtype))
        r.rdatas (readZone text) := by
  obtain ⟨e, text, h1, h2, h3⟩ := C51_lines_partial hg hL hw hT numbuf f zone _ hx hp
  refine ⟨e, text, h1, h2, readZone_records hT hx.1.1 hx.1.2.1 ?_ h3⟩
  intro l hl
  simp only [List.mem_cons, List.not_mem_nil, or_false] at hl
  rcases hl with rfl | rfl | rfl | rfl
  · exact ⟨_, _, rfl⟩
  · exact ⟨_, _, rfl⟩
  · cases zone <;> exact ⟨_, _, rfl⟩
  · cases zone <;> exact ⟨_, _, rfl⟩

/-- C51, zone file, a single record: this one does not depend on dates. -/
theorem C51_zone_record (hg : GmtimeOk gmtime) (hL : LocaleOk L) (hw : TextsOk w T) (hT : LineTexts T)
    (numbuf : Bytes) (f : Formatter) (zone : Bool) (r : RR) (o : Obs) (hx : (Rec.rr r o).legal) :
    ∃ e text ty, entryDecode (Rec.rr r o).key (Rec.rr r o).value = .ok e ∧
      entryFormat numbuf gmtime L w (f.setOutputFormat false) (e.setIszone zone) = .ok text ∧
      typeForm T r.rrtype ty ∧ readZone text = [some (T.name r.owner, ascii "IN", ty, T.data r.rdata r.rrtype)] := by
  obtain ⟨e, text, h1, h2, h3⟩ := C51_lines_partial hg hL hw hT numbuf f zone _ hx trivial
  have h := readZone_records hT hx.1.1 hx.1.2.1 (ls := []) (ds := [r.rdata]) (by simp) h3
  cases hz : readZone text with
  | nil => rw [hz] at h; exact h.elim
  | cons a as =>
    rw [hz] at h
    obtain ⟨⟨ty, a1, a2⟩, h⟩ := h
    cases as with
    | nil => exact ⟨e, text, ty, h1, h2, a1, by rw [hz, a2]⟩
    | cons => exact h.elim

/-- C51, zone file: metadata are comments throughout.  Same restriction. -/
theorem C51_zone_comment_partial (hg : GmtimeOk gmtime) (hL : LocaleOk L) (hw : TextsOk w T) (hT : LineTexts T)
    (numbuf : Bytes) (f : Formatter) (zone : Bool) (x : Rec) (hx : x.legal) (hp : Printable x)
    (hm : (∃ a b, x = .timeRange a b) ∨ (∃ t v, x = .version t v) ∨ ∃ s, x = .sourceInfo s) :
    ∃ e text, entryDecode x.key x.value = .ok e ∧
      entryFormat numbuf gmtime L w (f.setOutputFormat false) (e.setIszone zone) = .ok text ∧ readZone text = [] := by
  obtain ⟨e, text, h1, h2, h3⟩ := C51_lines_partial hg hL hw hT numbuf f zone _ hx hp
  refine ⟨e, text, h1, h2, ?_⟩
  have key : ∀ ls : List (List Form), (∀ l ∈ ls, ∃ c fs, l = exactly (59 :: c) :: fs) → HasLines text ls →
      readZone text = [] := by
    intro ls hc h
    have := readZone_records hT (n := []) (by unfold legalName; decide +kernel) (t := 0) (by decide) (ds := []) hc
      (by simpa using h)
    cases hz : readZone text with
    | nil => rfl
    | cons => rw [hz] at this; exact this.elim
  refine key _ ?_ h3
  rcases hm with ⟨a, b, rfl⟩ | ⟨t, v, rfl⟩ | ⟨s, rfl⟩
  · intro l hl
    simp only [textLines, List.mem_cons, List.not_mem_nil, or_false] at hl
    rcases hl with rfl | rfl <;> exact ⟨_, _, rfl⟩
  · intro l hl
    simp only [textLines, List.mem_cons, List.not_mem_nil, or_false] at hl
    subst hl; exact ⟨_, _, rfl⟩
  · intro l hl
    simp only [textLines, List.mem_cons, List.not_mem_nil, or_false] at hl
    subst hl; exact ⟨_, _, rfl⟩

end

/-! ## Examples and counterexamples -/

/-- Digits in groups of three. -/
def groupsOf3 (sep : Bytes) (n : Nat) : Bytes :=
  if n < 1000 then decimal n
  else groupsOf3 sep (n / 1000) ++ sep ++ [digitChar (n / 100), digitChar (n / 10), digitChar n]
termination_by n
decreasing_by omega

/-- The text of a date and time. -/
def clockString (r : Tm) : Bytes :=
  digitsK 4 (toU64 (1900 + r.year)) ++ 45 :: (digitsK 2 (toU64 (1 + r.mon)) ++ 45 :: (digitsK 2 (toU64 r.mday) ++
    32 :: (digitsK 2 (toU64 r.hour) ++ 58 :: (digitsK 2 (toU64 r.min) ++ 58 :: (digitsK 2 (toU64 r.sec) ++
      [32, 45, 48, 48, 48, 48])))))

/-- A locale with the given separator. -/
def exLocale (sep : Bytes) : Locale := ⟨groupsOf3 sep, clockString⟩

theorem decimal_step {n : Nat} (h : 10 ≤ n) : decimal n = decimal (n / 10) ++ [digitChar n] := by
  rw [decimal, if_neg (by omega)]

theorem groups_digits {sep : Bytes} (hs : sep.filter (fun c => decide (IsDigit c)) = []) (n : Nat) :
    (groupsOf3 sep n).filter (fun c => decide (IsDigit c)) = decimal n := by
  have I : ∀ n, IsDigit (digitChar n) := by intro n; unfold IsDigit; rw [digitChar_toNat]; omega
  have hd : ∀ n, (decimal n).filter (fun c => decide (IsDigit c)) = decimal n := fun n =>
    List.filter_eq_self.2 fun c hc => by simpa using (decimal_numeral n).digits c hc
  induction n using Nat.strongRecOn with
  | _ n ih =>
    rw [groupsOf3]
    split
    · exact hd n
    · rw [List.filter_append, List.filter_append, hs, ih _ (by omega)]
      rw [decimal_step (n := n) (by omega), decimal_step (n := n / 10) (by omega), decimal_step (n := n / 10 / 10) (by omega)]
      simp [I, Nat.div_div_eq_div_mul]

theorem groups_length (n : Nat) (sep : Bytes) (k : Nat) (h : n < 1000 ^ (k + 1)) :
    (groupsOf3 sep n).length ≤ 3 * (k + 1) + k * sep.length := by
  induction k generalizing n with
  | zero =>
    rw [groupsOf3, if_pos (by omega), decimal]
    split
    · simp
    rw [decimal]
    split
    · simp
    rw [decimal, if_pos (by omega)]
    simp
  | succ k ih =>
    rw [groupsOf3]
    split
    · next h' =>
      have := ih n (by
        rw [Nat.pow_succ]
        have : 0 < 1000 ^ k := Nat.pow_pos (by decide)
        omega)
      rw [groupsOf3, if_pos h'] at this
      rw [Nat.add_mul, Nat.one_mul]
      omega
    · have := ih (n / 1000) (by rw [Nat.pow_succ] at h; omega)
      simp only [List.length_append, List.length_cons, List.length_nil]
      rw [Nat.add_mul, Nat.one_mul]
      omega

theorem groups_top (n : Nat) (sep : Bytes) (h : n < 2 ^ 64) : (groupsOf3 sep n).length ≤ 20 + 6 * sep.length := by
  have small : ∀ m, m < 100 → (groupsOf3 sep m).length ≤ 2 := by
    intro m hm
    rw [groupsOf3, if_pos (by omega), decimal]
    split
    · simp
    rw [decimal, if_pos (by omega)]
    simp
  have step : ∀ m a, (groupsOf3 sep (m / 1000)).length ≤ a → (groupsOf3 sep m).length ≤ a + sep.length + 3 ∨ m < 1000 := by
    intro m a ha
    rw [groupsOf3]
    split
    · exact .inr ‹_›
    · left; simp only [List.length_append, List.length_cons, List.length_nil]; omega
  have low : ∀ m, m < 1000 → (groupsOf3 sep m).length ≤ 3 := fun m hm => by
    have := groups_length m sep 0 (by simpa using hm); omega
  have h0 := small (n / 1000 / 1000 / 1000 / 1000 / 1000 / 1000) (by omega)
  have get : ∀ m a, (groupsOf3 sep (m / 1000)).length ≤ a → (groupsOf3 sep m).length ≤ a + sep.length + 3 := by
    intro m a ha
    rcases step m a ha with h | h
    · exact h
    · have := low m h; omega
  have := get n _ (get _ _ (get _ _ (get _ _ (get _ _ (get _ _ h0)))))
  omega

theorem groups_nonl {sep : Bytes} (hs : NoNl sep) (n : Nat) : NoNl (groupsOf3 sep n) := by
  have I : ∀ n, (10 : UInt8) ≠ digitChar n := fun n => by
    have : IsDigit (digitChar n) := by unfold IsDigit; rw [digitChar_toNat]; omega
    exact (digit_ne this).1
  induction n using Nat.strongRecOn with
  | _ n ih =>
    rw [groupsOf3]
    split
    · exact numeral_nonl (decimal_numeral n)
    · have := ih (n / 1000) (by omega)
      simp only [NoNl, List.mem_append, List.mem_cons, List.not_mem_nil, or_false, not_or] at *
      exact ⟨⟨this, hs⟩, I _, I _, I _⟩

theorem clock_ok {t : Stamp} (h : t.Valid) (hy : t.year ≤ 9999) : readClock (clockString t.tm) = some t.seconds := by
  have hr := readStamp_string h hy
  rw [← rfcString_tm h hy] at hr
  rw [← hr]
  simp [clockString, rfcString, digitsK, readClock]

/-- Locales without a separator or with one of a single byte meet the contract. -/
theorem exLocale_ok {sep : Bytes} (h1 : sep.length ≤ 1) (h2 : sep.filter (fun c => decide (IsDigit c)) = [])
    (h3 : NoNl sep) : LocaleOk (exLocale sep) where
  grouped n hn := by
    refine ⟨?_, ?_, groups_nonl h3 n⟩
    · show Numeral _ _
      rw [show (exLocale sep).grouped n = groupsOf3 sep n from rfl, groups_digits h2]
      exact decimal_numeral n
    · have := groups_top n sep hn
      show (groupsOf3 sep n).length ≤ 26
      omega
  clock t ht hs := clock_ok ht (year_le ht (by omega))

theorem hexText_ok (bs : Bytes) : ∀ c ∈ fmtHexStr [] bs, c ≠ 10 ∧ c ≠ 32 ∧ c ≠ 59 := by
  have hx : ∀ b c, c ∈ hex2 b → c ≠ 10 ∧ c ≠ 32 ∧ c ≠ 59 := by
    have : ∀ n : Fin 256, ∀ c ∈ hex2 (UInt8.ofNat n.val), c ≠ 10 ∧ c ≠ 32 ∧ c ≠ 59 := by decide +kernel
    intro b c hc
    exact this ⟨b.toNat, b.toNat_lt⟩ c (by simpa using hc)
  have key : ∀ (bs u : Bytes), (∀ c ∈ u, c ≠ 10 ∧ c ≠ 32 ∧ c ≠ 59) → ∀ c ∈ fmtHexStr u bs, c ≠ 10 ∧ c ≠ 32 ∧ c ≠ 59 := by
    intro bs
    induction bs with
    | nil => intro u hu; exact hu
    | cons b bs ih =>
      intro u hu
      refine ih _ fun c hc => ?_
      rcases List.mem_append.1 hc with hc | hc
      · exact hu c hc
      · exact hx b c hc
  exact key bs [] (by simp)

theorem exTexts_lines : LineTexts exTexts where
  name n _ := by
    have h := hexText_ok (wire n)
    refine ⟨fun hm => (h _ hm).1 rfl, fun hm => (h _ hm).2.1 rfl, fun hm => ?_⟩
    exact (h 59 (List.mem_of_head? hm)).2.2 rfl
  type t _ s hs := by
    change (if t = 1 then some [65] else none) = some s at hs
    split at hs
    · cases hs; decide
    · cases hs
  data d _ _ _ := fun hm => (hexText_ok d _ hm).1 rfl

/-- The hypotheses of `C51_lines_partial` are met. -/
example : ∃ gmtime, GmtimeOk gmtime ∧ LocaleOk (exLocale [44]) ∧ TextsOk exWdns exTexts ∧ LineTexts exTexts ∧
    exJsonRec.legal ∧ Printable exJsonRec := by
  obtain ⟨g, hg⟩ := gmtime_exists
  exact ⟨g, hg, exLocale_ok (by decide) (by decide) (by decide), exTexts_ok, exTexts_lines,
    ⟨by unfold RRset.legal legalName; decide +kernel, by unfold Obs.legal; decide +kernel⟩, by unfold Printable exJsonRec; decide +kernel⟩

/-- The text of an RRset seen 1234567 times, on one date. -/
example : entryToText (fun _ => some (⟨2024, 2, 29, 23, 59, 58⟩ : Stamp).tm) (exLocale [44]) exWdns
      (Rec.rrset ⟨[[99]], 1, [], [[192, 0, 2, 1], [192, 0, 2, 2]]⟩ ⟨1709251198, 1709251198, 1234567⟩).entry =
    .ok (ascii (";;  bailiwick: 00\n;;      count: 1,234,567\n;; first seen: 2024-02-29 23:59:58 -0000\n" ++
      ";;  last seen: 2024-02-29 23:59:58 -0000\n016300 IN A c0000201\n016300 IN A c0000202\n")) := by
  decide +kernel

/-- Read as a zone file. -/
example : readZone (ascii (";;  bailiwick: 00\n;;      count: 1,234,567\n;; first seen: 2024-02-29 23:59:58 -0000\n" ++
      ";;  last seen: 2024-02-29 23:59:58 -0000\n016300 IN A c0000201\n016300 IN A c0000202\n")) =
    [some (ascii "016300", ascii "IN", ascii "A", ascii "c0000201"),
     some (ascii "016300", ascii "IN", ascii "A", ascii "c0000202")] := by decide +kernel

/-- C51 fails in locales whose separator takes more than one byte (U+202F, the narrow no-break space, in French ones):
for a count of 10^15 more bytes are read from the number buffer than it has, though the separator is no digit, no
newline and no NUL. -/
theorem C51_locale_counterexample :
    amount (10 ^ 15) ((exLocale [226, 128, 175]).grouped (10 ^ 15)) ∧
    (Rec.rrset ⟨[[99]], 1, [], [[192, 0, 2, 1]]⟩ ⟨10, 20, 10 ^ 15⟩).legal ∧
    Printable (.rrset ⟨[[99]], 1, [], [[192, 0, 2, 1]]⟩ ⟨10, 20, 10 ^ 15⟩) ∧
    ∀ gmtime, entryToText gmtime (exLocale [226, 128, 175]) exWdns
      (Rec.rrset ⟨[[99]], 1, [], [[192, 0, 2, 1]]⟩ ⟨10, 20, 10 ^ 15⟩).entry = .fault .oobRead := by
  refine ⟨?_, ⟨by unfold RRset.legal legalName; decide +kernel, by unfold Obs.legal; decide +kernel⟩,
    by unfold Printable; decide +kernel, fun gmtime => ?_⟩
  · show Numeral _ _
    rw [show (exLocale [226, 128, 175]).grouped (10 ^ 15) = groupsOf3 [226, 128, 175] (10 ^ 15) from rfl,
      groups_digits (by decide)]
    exact decimal_numeral _
  · unfold entryToText entryToTextFmt
    simp only
    rw [if_pos (by exact rfl)]
    unfold textRrset
    rw [show exWdns.domainToStr (Rec.rrset ⟨[[99]], 1, [], [[192, 0, 2, 1]]⟩ ⟨10, 20, 10 ^ 15⟩).entry.bailiwick =
      .ok (lit "00") from by decide +kernel]
    simp only [Out.ok_bind]
    rw [show fmtUint64 (exLocale [226, 128, 175]) ([] ++ lit ";;  bailiwick: " ++ cstr (lit "00") ++ lit "\n;;      count: ")
      (Rec.rrset ⟨[[99]], 1, [], [[192, 0, 2, 1]]⟩ ⟨10, 20, 10 ^ 15⟩).entry.count = .fault .oobRead from by decide +kernel]
    rfl

/-- C51 fails for source descriptions with a newline: what follows it is no comment. -/
theorem C51_source_counterexample (gmtime : Int → Option Tm) (L : Locale) :
    (Rec.sourceInfo (ascii "x\ncom IN NS evil")).legal ∧
    (∃ text, entryToText gmtime L exWdns (Rec.sourceInfo (ascii "x\ncom IN NS evil")).entry = .ok text ∧
      readZone text = [some (ascii "com", ascii "IN", ascii "NS", ascii "evil")]) := by
  refine ⟨?_, ascii ";; source info: x\ncom IN NS evil\n", ?_, by decide +kernel⟩
  · simp only [Rec.legal]
  · rfl

/-- C51 fails for times that `gmtime_r` finds no date for: nothing is printed in their place. -/
theorem C51_time_counterexample (gmtime : Int → Option Tm) (L : Locale) (h : gmtime 9223372036854775807 = none) :
    (Rec.timeRange 9223372036854775807 9223372036854775807).legal ∧
    entryToText gmtime L exWdns (Rec.timeRange 9223372036854775807 9223372036854775807).entry =
      .ok (ascii ";; Earliest time_first: \n;; Latest time_last: \n") := by
  refine ⟨by simp only [Rec.legal]; decide +kernel, ?_⟩
  have e : ∀ u, timeText gmtime L true u 9223372036854775807 = .ok u := by
    intro u
    show Out.ok (fmtTime gmtime L u _) = _
    unfold fmtTime
    rw [show toTimeT 9223372036854775807 = 9223372036854775807 by decide, h]
  show textTimes gmtime L true _ [] = _
  unfold textTimes
  simp only
  rw [show (Rec.timeRange 9223372036854775807 9223372036854775807).entry.timeFirst = 9223372036854775807 from rfl, e]
  simp only [Out.ok_bind]
  rw [show (Rec.timeRange 9223372036854775807 9223372036854775807).entry.timeLast = 9223372036854775807 from rfl, e]
  rfl

end Verif.Props
