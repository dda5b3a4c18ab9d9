import Verif.Model.Json
import Verif.Spec.Json
import Verif.Lemmas.Format

/-! # Lemmas: JSON texts -/

namespace Verif
open Spec

/-- The text does not start with a digit. -/
def NoDigit (s : Bytes) : Prop := ∀ c, s.head? = some c → ¬ IsDigit c

/-- The text `t` is read as the value `v`, wherever it stands. -/
structure Reads (t : Bytes) (v : JVal) : Prop where
  head : ∀ c, t.head? = some c → c ≠ 93
  read : ∀ n rest, t.length + 1 ≤ n → NoDigit rest → jsonValue n (t ++ rest) = some (v, rest)

theorem reads_string (s : Bytes) : Reads (34 :: (s.flatMap escOf ++ [34])) (.str s) where
  head := by intro c hc; simp only [List.head?_cons, Option.some.injEq] at hc; subst hc; decide
  read := by
    intro n rest hn _
    obtain ⟨n, rfl⟩ : ∃ m, n = m + 1 := ⟨n - 1, by omega⟩
    rw [List.cons_append, jsonValue.eq_3, if_pos rfl, List.append_assoc, List.singleton_append, jsonString_escaped]
    rfl

theorem takeWhile_digits {d rest : Bytes} (hd : ∀ c ∈ d, IsDigit c) (hr : NoDigit rest) :
    (d ++ rest).takeWhile (fun c => decide (IsDigit c)) = d ∧
      (d ++ rest).dropWhile (fun c => decide (IsDigit c)) = rest := by
  induction d with
  | nil =>
    cases rest with
    | nil => exact ⟨rfl, rfl⟩
    | cons c rest =>
      have h : ¬ IsDigit c := hr c rfl
      simp [h]
  | cons c d ih =>
    have hc := hd c (by simp)
    obtain ⟨h1, h2⟩ := ih (fun x hx => hd x (by simp [hx]))
    simp [hc, h1, h2]

theorem reads_number {d : Bytes} {n : Nat} (h : Numeral d n) : Reads d (.num n) where
  head := by
    intro c hc
    have := h.digits c (List.mem_of_mem_head? (by rw [hc]; rfl))
    rintro rfl
    exact absurd this (by decide)
  read := by
    intro m rest hm hr
    obtain ⟨m, rfl⟩ : ∃ k, m = k + 1 := ⟨m - 1, by omega⟩
    obtain ⟨h1, h2⟩ := takeWhile_digits h.digits hr
    have hn := h.nonempty
    have hnat : jsonNat (d ++ rest) = some (n, rest) := by
      unfold jsonNat
      simp only [h1, h2]
      rw [if_neg, h.value]
      rintro (h3 | ⟨h3, h4⟩)
      · exact hn h3
      · exact h.noLeadingZero h3 h4
    obtain ⟨c, t, rfl⟩ := List.exists_cons_of_ne_nil hn
    have hc : IsDigit c := h.digits c (by simp)
    have hne : ∀ k : UInt8, ¬ IsDigit k → c ≠ k := by rintro k hk rfl; exact hk hc
    rw [List.cons_append] at hnat ⊢
    rw [jsonValue.eq_3, if_neg (hne _ (by decide)), if_neg (hne _ (by decide)), if_neg (hne _ (by decide)), hnat]
    rfl

/-! ## Arrays -/

/-- Items with commas between them. -/
def itemsText : List Bytes → Bytes
  | [] => []
  | [t] => t
  | t :: t' :: ts => t ++ 44 :: itemsText (t' :: ts)

theorem matches_length {α β : Type} {R : α → β → Prop} {as : List α} {bs : List β} (h : Aligned R as bs) :
    as.length = bs.length := by
  induction as generalizing bs with
  | nil => cases bs with
    | nil => rfl
    | cons b bs => exact h.elim
  | cons a as ih => cases bs with
    | nil => exact h.elim
    | cons b bs => rw [List.length_cons, List.length_cons, ih h.2]

theorem noDigit_cons {c : UInt8} (s : Bytes) (h : ¬ IsDigit c) : NoDigit (c :: s) := by
  intro d hd
  simp only [List.head?_cons, Option.some.injEq] at hd
  subst hd; exact h

theorem reads_items {ts : List Bytes} {vs : List JVal} (h : Aligned Reads ts vs) (hn : ts ≠ []) :
    ∀ n rest, (itemsText ts).length + 2 ≤ n → jsonItems n (itemsText ts ++ 93 :: rest) = some (vs, rest) := by
  induction ts generalizing vs with
  | nil => exact absurd rfl hn
  | cons t ts ih =>
    cases vs with
    | nil => exact h.elim
    | cons v vs =>
    intro n rest hl
    obtain ⟨n, rfl⟩ : ∃ k, n = k + 1 := ⟨n - 1, by omega⟩
    obtain ⟨h1, h2⟩ := h
    cases ts with
    | nil =>
      cases vs with
      | cons _ _ => exact h2.elim
      | nil =>
        simp only [itemsText] at hl ⊢
        rw [jsonItems.eq_2, h1.read n (93 :: rest) (by omega) (noDigit_cons _ (by decide))]
        rfl
    | cons t' ts =>
      simp only [itemsText, List.length_append, List.length_cons] at hl
      rw [itemsText, List.append_assoc, List.cons_append, jsonItems.eq_2,
        h1.read n _ (by omega) (noDigit_cons _ (by decide))]
      simp only [if_pos]
      rw [ih h2 (by simp) n rest (by omega)]
      rfl

theorem reads_array {ts : List Bytes} {vs : List JVal} (h : Aligned Reads ts vs) :
    Reads (91 :: (itemsText ts ++ [93])) (.arr vs) where
  head := by intro c hc; simp only [List.head?_cons, Option.some.injEq] at hc; subst hc; decide
  read := by
    intro n rest hn _
    obtain ⟨n, rfl⟩ : ∃ m, n = m + 1 := ⟨n - 1, by omega⟩
    rw [List.cons_append, jsonValue.eq_3, if_neg (by decide), if_pos rfl, List.append_assoc, List.singleton_append]
    cases ts with
    | nil =>
      cases vs with
      | cons _ _ => exact h.elim
      | nil => rfl
    | cons t ts =>
      cases vs with
      | nil => exact h.elim
      | cons v vs =>
      rw [if_neg]
      · rw [reads_items h (by simp) n rest (by simp at hn; omega)]; rfl
      · intro hh
        have : (itemsText (t :: ts) ++ 93 :: rest).head? = some 93 := hh
        have ht := h.1.head
        have hne : t ≠ [] := by
          rintro rfl
          have := h.1.read 1 [] (by simp) (by intro c hc; simp at hc)
          rw [List.append_nil, jsonValue.eq_2] at this
          cases this
        obtain ⟨c, t', rfl⟩ := List.exists_cons_of_ne_nil hne
        have h3 : (itemsText ((c :: t') :: ts) ++ 93 :: rest).head? = some c := by
          cases ts <;> simp [itemsText]
        rw [h3] at this
        exact ht c rfl (Option.some.inj this)

/-! ## Objects -/

/-- A member name that needs no escapes. -/
def PlainKey (k : Bytes) : Prop := k.flatMap escOf = k

instance (k : Bytes) : Decidable (PlainKey k) := inferInstanceAs (Decidable (_ = _))

/-- A member. -/
def memberText (m : Bytes × Bytes) : Bytes := 34 :: (m.1 ++ 34 :: 58 :: m.2)

/-- Members with commas between them. -/
def membersText : List (Bytes × Bytes) → Bytes
  | [] => []
  | m :: ms => memberText m ++ ms.flatMap fun m => 44 :: memberText m

/-- The member is read as name and value. -/
def MemberReads (m : Bytes × Bytes) (v : Bytes × JVal) : Prop := m.1 = v.1 ∧ PlainKey m.1 ∧ Reads m.2 v.2

theorem reads_members {ms : List (Bytes × Bytes)} {vs : List (Bytes × JVal)} (h : Aligned MemberReads ms vs)
    (hn : ms ≠ []) : ∀ n rest, (membersText ms).length + 2 ≤ n →
      jsonMembers n (membersText ms ++ 125 :: rest) = some (vs, rest) := by
  induction ms generalizing vs with
  | nil => exact absurd rfl hn
  | cons m ms ih =>
    cases vs with
    | nil => exact h.elim
    | cons v vs =>
    intro n rest hl
    obtain ⟨n, rfl⟩ : ∃ k, n = k + 1 := ⟨n - 1, by omega⟩
    obtain ⟨⟨h1, h2, h3⟩, h4⟩ := h
    obtain ⟨k, t⟩ := m
    obtain ⟨k', v⟩ := v
    cases h1
    replace h3 : Reads t v := h3
    have hs : ∀ r, jsonString (k ++ 34 :: r) = some (k, r) := by
      intro r
      have := jsonString_escaped k r
      rwa [show k.flatMap escOf = k from h2] at this
    cases ms with
    | nil =>
      cases vs with
      | cons _ _ => exact h4.elim
      | nil =>
        simp only [membersText, memberText, List.flatMap_nil, List.append_nil, List.length_cons,
          List.length_append] at hl
        simp only [membersText, memberText, List.flatMap_nil, List.append_nil, List.cons_append, List.append_assoc]
        rw [jsonMembers.eq_3, if_neg (by decide), hs]
        simp only [ne_eq, not_true_eq_false, if_false]
        rw [h3.read n (125 :: rest) (by omega) (noDigit_cons _ (by decide))]
        rfl
    | cons m' ms =>
      have e : membersText ((k, t) :: m' :: ms) = 34 :: (k ++ 34 :: 58 :: (t ++ 44 :: membersText (m' :: ms))) := by
        simp [membersText, memberText]
      rw [e] at hl ⊢
      simp only [List.length_append, List.length_cons] at hl
      simp only [List.cons_append, List.append_assoc]
      rw [jsonMembers.eq_3, if_neg (by decide), hs]
      simp only [ne_eq, not_true_eq_false, if_false]
      rw [h3.read n _ (by omega) (noDigit_cons _ (by decide))]
      simp only [if_pos]
      rw [ih h4 (by simp) n rest (by omega)]
      rfl

theorem readJson_object {ms : List (Bytes × Bytes)} {vs : List (Bytes × JVal)} (h : Aligned MemberReads ms vs) :
    readJson (123 :: (membersText ms ++ [125])) = some (.obj vs) := by
  unfold readJson
  rw [jsonValue.eq_3, if_neg (by decide), if_neg (by decide), if_pos rfl]
  cases ms with
  | nil =>
    cases vs with
    | cons _ _ => exact h.elim
    | nil => rfl
  | cons m ms =>
    rw [if_neg]
    · have := reads_members h (by simp) (123 :: (membersText (m :: ms) ++ [125])).length [] (by simp)
      rw [this]; rfl
    · simp [membersText, memberText]

/-! ## The writer -/

/-- The buffer holds an unfinished object with the given members. -/
structure Holds (b : JBuf) (vs : List (Bytes × JVal)) : Prop where
  text : ∃ ms, b.u = 123 :: membersText ms ∧ Aligned MemberReads ms vs
  started : b.started = 0 ↔ vs = []

theorem holds_start : Holds ⟨[123], 0⟩ [] := ⟨⟨[], rfl, trivial⟩, by simp⟩

theorem matches_append {α β : Type} {R : α → β → Prop} {as : List α} {bs : List β} {a : α} {b : β}
    (h : Aligned R as bs) (h' : R a b) : Aligned R (as ++ [a]) (bs ++ [b]) := by
  induction as generalizing bs with
  | nil => cases bs with
    | nil => exact ⟨h', trivial⟩
    | cons b bs => exact h.elim
  | cons a as ih => cases bs with
    | nil => exact h.elim
    | cons b bs => exact ⟨h.1, ih h.2⟩

theorem declare_eq {b : JBuf} {ms : List (Bytes × Bytes)} (hu : b.u = 123 :: membersText ms) (k t : Bytes) :
    declareJsonValue b.u k (decide (ms = [])) ++ t = 123 :: membersText (ms ++ [(k, t)]) := by
  unfold declareJsonValue
  rw [hu]
  cases ms with
  | nil => simp [membersText, memberText]
  | cons m ms => simp [membersText, memberText]

theorem Holds.add {b : JBuf} {vs : List (Bytes × JVal)} (h : Holds b vs) {name : String} {t : Bytes} {v : JVal}
    (hk : PlainKey (lit name)) (hr : Reads t v) :
    Holds ((b.decl name).with ((b.decl name).u ++ t)) (vs ++ [(lit name, v)]) := by
  obtain ⟨⟨ms, hu, hm⟩, hs⟩ := h
  refine ⟨⟨ms ++ [(lit name, t)], ?_, matches_append hm ⟨rfl, hk, hr⟩⟩, ?_⟩
  · have e : (b.started == 0) = decide (ms = []) := by
      rw [Bool.eq_iff_iff]
      simp only [beq_iff_eq, decide_eq_true_eq, hs]
      have := matches_length hm
      constructor
      · rintro rfl; exact List.length_eq_zero_iff.1 this
      · rintro rfl; exact List.length_eq_zero_iff.1 this.symm
    show declareJsonValue b.u (lit name) (b.started == 0) ++ t = _
    rw [e, declare_eq hu]
  · simp [JBuf.with, JBuf.decl]

theorem Holds.addMore {b : JBuf} {vs : List (Bytes × JVal)} (h : Holds b vs) (hv : vs ≠ []) {k t : Bytes} {v : JVal}
    (hk : PlainKey k) (hr : Reads t v) :
    Holds (b.with (declareJsonValue b.u k false ++ t)) (vs ++ [(k, v)]) := by
  obtain ⟨⟨ms, hu, hm⟩, hs⟩ := h
  refine ⟨⟨ms ++ [(k, t)], ?_, matches_append hm ⟨rfl, hk, hr⟩⟩, ?_⟩
  · have e : decide (ms = []) = false := by
      rw [decide_eq_false_iff_not]
      rintro rfl
      exact hv (List.length_eq_zero_iff.1 (matches_length hm).symm)
    rw [← declare_eq hu, e]
    rfl
  · simp only [JBuf.with, List.append_eq_nil_iff, List.cons_ne_nil, and_false, iff_false]
    exact fun h => hv (hs.1 h)

theorem Holds.finish {b : JBuf} {vs : List (Bytes × JVal)} (h : Holds b vs) : readJson (b.u ++ [125]) = some (.obj vs) := by
  obtain ⟨⟨ms, hu, hm⟩, -⟩ := h
  rw [hu, List.cons_append]
  exact readJson_object hm

theorem strAppend_eq (u s : Bytes) : jsonStrAppend u s = u ++ 34 :: ((cstr s).flatMap escOf ++ [34]) := valueString_eq _ _

theorem rrtypeJson_eq (w : Wdns) (u : Bytes) (t : Nat) :
    fmtRrtypeJson w u t = u ++ 34 :: ((rrtypeText w t).flatMap escOf ++ [34]) := valueString_eq _ _

/-- Texts separated as in the loops: a comma behind each but the last. -/
theorem delimited {α : Type} (f : α → Bytes) (loop : Bytes → Nat → List α → Bytes) (total : Nat)
    (h0 : ∀ u i, loop u i [] = u)
    (h1 : ∀ u i a as, loop u i (a :: as) = loop (arrDelimit (u ++ f a) i total) (i + 1) as) :
    ∀ (as : List α) (u : Bytes) (i : Nat), i + as.length = total → loop u i as = u ++ itemsText (as.map f)
  | [], u, i, _ => by rw [h0]; simp [itemsText]
  | [a], u, i, h => by
    rw [h1, h0, arrDelimit, if_neg (by simp at h; omega)]
    rfl
  | a :: a' :: as, u, i, h => by
    simp only [List.length_cons] at h
    rw [h1, delimited f loop total h0 h1 (a' :: as) _ _ (by simp; omega), arrDelimit, if_pos (by omega)]
    simp [itemsText]

theorem matches_map {α β γ : Type} {R : β → γ → Prop} (f : α → β) (g : α → γ) (as : List α)
    (h : ∀ a ∈ as, R (f a) (g a)) : Aligned R (as.map f) (as.map g) := by
  induction as with
  | nil => trivial
  | cons a as ih => exact ⟨h a (by simp), ih fun x hx => h x (by simp [hx])⟩

theorem rdatasLoop_eq (w : Wdns) (rrtype : Nat) (ds : List Bytes) (u : Bytes) :
    rdatasLoop w rrtype ds.length u 0 ds =
      u ++ itemsText (ds.map fun d => 34 :: ((cstr (w.rdataToStr d (rrtype % 65536))).flatMap escOf ++ [34])) := by
  refine delimited _ (rdatasLoop w rrtype ds.length) ds.length (fun _ _ => rfl) (fun u i d ds => ?_) ds u 0 (by omega)
  rw [rdatasLoop, strAppend_eq]

theorem rrtypesLoop_eq (w : Wdns) (ts : List Nat) (u : Bytes) :
    rrtypesLoop w ts.length u 0 ts = u ++ itemsText (ts.map fun t => 34 :: ((rrtypeText w t).flatMap escOf ++ [34])) := by
  refine delimited _ (rrtypesLoop w ts.length) ts.length (fun _ _ => rfl) (fun u i d ds => ?_) ts u 0 (by omega)
  rw [rrtypesLoop, rrtypeJson_eq]

theorem cstr_eq {s : Bytes} (h : ∀ c ∈ s, c ≠ 0) : cstr s = s := by
  unfold cstr
  induction s with
  | nil => rfl
  | cons c s ih =>
    rw [List.takeWhile_cons, if_pos (by simpa using h c (by simp)), ih fun x hx => h x (by simp [hx])]

theorem hex2_nonzero (b : UInt8) : ∀ c ∈ hex2 b, c ≠ 0 := by
  revert b; refine u8_all ?_; decide +kernel

theorem cstr_hex (s : Bytes) : cstr (fmtHexStr [] s) = fmtHexStr [] s := by
  refine cstr_eq ?_
  rw [fmtHexStr_eq]
  intro c hc
  simp only [List.nil_append, List.mem_flatMap] at hc
  obtain ⟨b, -, hb⟩ := hc
  exact hex2_nonzero b c hb

theorem fmtHexStr_append (a b : Bytes) : fmtHexStr (fmtHexStr [] a) b = fmtHexStr [] (a ++ b) := by
  rw [fmtHexStr_eq, fmtHexStr_eq, fmtHexStr_eq]; simp

theorem rawLoop_eq {rrtype : Nat} (h : (varintEncode32 rrtype).length ≤ 3) (ds : List Bytes) (u : Bytes) :
    rawLoop rrtype ds.length u 0 ds =
      .ok (u ++ itemsText (ds.map fun d => 34 :: ((fmtHexStr [] (d ++ varintEncode32 rrtype)).flatMap escOf ++ [34]))) := by
  let loop : Bytes → Nat → List Bytes → Bytes := fun u i as =>
    (as.foldl (fun (p : Bytes × Nat) d => (arrDelimit (p.1 ++ 34 :: ((fmtHexStr [] (d ++ varintEncode32 rrtype)).flatMap escOf ++ [34]))
      p.2 ds.length, p.2 + 1)) (u, i)).1
  have e : ∀ (as : List Bytes) (u : Bytes) (i : Nat), rawLoop rrtype ds.length u i as = .ok (loop u i as) := by
    intro as
    induction as with
    | nil => intro u i; rfl
    | cons d as ih =>
      intro u i
      rw [rawLoop]
      simp only [show ¬ (varintEncode32 rrtype).length > 3 by omega, if_false]
      rw [ih, strAppend_eq, fmtHexStr_append, cstr_hex]
      rfl
  rw [e, delimited _ loop ds.length (fun _ _ => rfl) (fun _ _ _ _ => rfl) ds u 0 (by omega)]

theorem rawLoop_fault {rrtype : Nat} (h : 3 < (varintEncode32 rrtype).length) (total : Nat) (u : Bytes) (i : Nat) {ds : List Bytes}
    (hd : ds ≠ []) : rawLoop rrtype total u i ds = .fault .oobWrite := by
  obtain ⟨d, ds, rfl⟩ := List.exists_cons_of_ne_nil hd
  rw [rawLoop]; simp [h]

theorem decimal_eq (n : Nat) : decimal n = digitsK (countDigits n) n := by
  induction n using Nat.strongRecOn with
  | _ n ih =>
    rw [decimal, countDigits]
    by_cases h : n < 10
    · rw [if_pos h, if_pos (by omega)]; rfl
    · rw [if_neg h, if_neg (by omega), ih (n / 10) (by omega)]
      rfl

theorem decimal_numeral (n : Nat) : Numeral (decimal n) n := by rw [decimal_eq]; exact numeral_digits n

/-! ## The members of an entry, as values -/

/-- The value made by the time formatter. -/
def timeVal (gmtime : Int → Option Tm) (f : Formatter) (v : Nat) : Out JVal :=
  if f.unixDates then .ok (.num v) else do
    let s ← rfc3339Text gmtime v
    .ok (.str s)

/-- The value made for a domain name. -/
def nameVal (w : Wdns) (n : Bytes) : Out JVal := do
  let s ← w.domainToStr n
  .ok (.str (cstr s))

/-- Members common to RRsets and records. -/
def commonVals (gmtime : Int → Option Tm) (w : Wdns) (f : Formatter) (e : Entry) : Out (List (Bytes × JVal)) := do
  let a ← timeVal gmtime f e.timeFirst
  let z ← timeVal gmtime f e.timeLast
  let n ← nameVal w e.name
  .ok [(lit "count", .num e.count), (lit (if e.iszone then "zone_time_first" else "time_first"), a),
    (lit (if e.iszone then "zone_time_last" else "time_last"), z), (lit "rrname", n),
    (lit "rrtype", .str (rrtypeText w e.rrtype))]

/-- The value of the member `rrtypes`. -/
def typesVal (w : Wdns) (e : Entry) : JVal :=
  match e.rrtypeMap with
  | none => .arr []
  | some map =>
    match unionUnpack map with
    | none => .arr [.str (lit "<failure>")]
    | some ts => .arr (ts.map fun t => .str (rrtypeText w t))

/-- Record data as a string. -/
def dataVal (w : Wdns) (e : Entry) (d : Bytes) : JVal := .str (cstr (w.rdataToStr d (e.rrtype % 65536)))

/-- A value, in an array if asked for. -/
def arrVal (b : Bool) (v : JVal) : JVal := if b then .arr [v] else v

/-- The further members of an RRset. -/
def rrsetVals (w : Wdns) (f : Formatter) (e : Entry) : Out (List (Bytes × JVal)) := do
  let n ← nameVal w e.bailiwick
  let l := [(lit "bailiwick", n), (lit "rdata", .arr (e.rdatas.map (dataVal w e)))]
  if f.addRawRdata then
    if e.rdatas ≠ [] ∧ 3 < (varintEncode32 e.rrtype).length then .fault .oobWrite
    else .ok (l ++ [(lit "rdata_raw", .arr (e.rdatas.map fun d => .str (fmtHexStr [] (d ++ varintEncode32 e.rrtype))))])
  else .ok l

/-- The further members of a record. -/
def rdataVals (w : Wdns) (f : Formatter) (e : Entry) : Out (List (Bytes × JVal)) :=
  match e.rdatas with
  | [d] => .ok ((lit "rdata", arrVal f.alwaysArray (dataVal w e d)) ::
      if f.addRawRdata then [(lit "rdata_raw", arrVal f.alwaysArray (.str (fmtHexStr [] d)))] else [])
  | _ => .fail

/-- The name of a version's entry type. -/
def kindText (e : Entry) : Bytes :=
  match entryTypeToString e.vType with
  | some s => s
  | none => lit "unknown-" ++ decimal (e.vType % 256)

/-- All members of an entry. -/
def entryVals (gmtime : Int → Option Tm) (w : Wdns) (f : Formatter) (e : Entry) : Out (List (Bytes × JVal)) := do
  if e.eType = tRRSET then
    let c ← commonVals gmtime w f e
    let r ← rrsetVals w f e
    .ok (c ++ r)
  else if e.eType = tRDATA then
    let c ← commonVals gmtime w f e
    let r ← rdataVals w f e
    .ok (c ++ r)
  else if e.eType = tRRSET_NAME_FWD then
    let n ← nameVal w e.name
    .ok [(lit "rrset_name", n), (lit "rrtypes", typesVal w e)]
  else if e.eType = tRDATA_NAME_REV then
    let n ← nameVal w e.name
    .ok [(lit "rdata_name", n), (lit "rrtypes", typesVal w e)]
  else if e.eType = tTIME_RANGE then
    let a ← timeVal gmtime f e.timeFirst
    let z ← timeVal gmtime f e.timeLast
    .ok [(lit "time_first", a), (lit "time_last", z)]
  else if e.eType = tSOURCE_INFO then
    match e.sourceInfo with
    | none => .fault .nullDeref
    | some s => .ok [(lit "source info", .str (cstr s))]
  else if e.eType = tVERSION then
    .ok [(lit "entry_type", .str (cstr (kindText e))), (lit "version", .num e.version)]
  else .ok []

/-- The two computations end in the same way, and results correspond. -/
def Same {α β : Type} (R : α → β → Prop) : Out α → Out β → Prop
  | .ok a, .ok b => R a b
  | .fail, .fail => True
  | .fault f, .fault g => f = g
  | _, _ => False

theorem same_bind {α β γ δ : Type} {R : α → β → Prop} {S : γ → δ → Prop} {o : Out α} {p : Out β} {f : α → Out γ}
    {g : β → Out δ} (h : Same R o p) (hf : ∀ a b, R a b → Same S (f a) (g b)) : Same S (o >>= f) (p >>= g) := by
  cases o <;> cases p <;> simp_all [Same]

/-- `app` appends a text that is read as the value. -/
def Appends (app : Bytes → Out Bytes) (val : Out JVal) : Prop :=
  ∀ u, Same (fun u' v => ∃ t, u' = u ++ t ∧ Reads t v) (app u) val

theorem same_val {γ δ : Type} {S : γ → δ → Prop} {b : JBuf} {vs : List (Bytes × JVal)} (hb : Holds b vs) (name : String)
    (hk : PlainKey (lit name)) {app : Bytes → Out Bytes} {val : Out JVal} (ha : Appends app val)
    {k : Bytes → Out γ} {k' : JVal → Out δ}
    (h : ∀ u v, Holds ((b.decl name).with u) (vs ++ [(lit name, v)]) → Same S (k u) (k' v)) :
    Same S (app (b.decl name).u >>= k) (val >>= k') := by
  refine same_bind (ha (b.decl name).u) ?_
  rintro u v ⟨t, rfl, hr⟩
  exact h _ _ (hb.add hk hr)

theorem appends_num {numbuf : Bytes} (hb : numbuf.length = 32) {n : Nat} (hn : n < 2 ^ 64) :
    Appends (fun u => appendJsonValueInt numbuf u n) (.ok (.num n)) := by
  intro u
  have hc : countDigits n ≤ 20 := countDigits_le (by decide) (Nat.lt_trans hn (by decide))
  have e : appendJsonValueInt numbuf u n = .ok (u ++ digitsK (countDigits n) n) := by
    unfold appendJsonValueInt
    rw [vnumToStr_eq (by omega)]
    simp only [Out.ok_bind]
    rw [List.take_append_of_le_length (by rw [digitsK_length]; omega),
      List.take_of_length_le (by rw [digitsK_length]; omega)]
  show Same _ (appendJsonValueInt numbuf u n) _
  rw [e]
  exact ⟨_, rfl, reads_number (numeral_digits n)⟩

theorem appends_time {numbuf : Bytes} (hb : numbuf.length = 32) {n : Nat} (hn : n < 2 ^ 64) (gmtime : Int → Option Tm)
    (f : Formatter) : Appends (fun u => timeJson numbuf gmtime f u n) (timeVal gmtime f n) := by
  intro u
  show Same _ (timeJson numbuf gmtime f u n) _
  unfold timeJson timeVal
  split
  · exact appends_num hb hn u
  · unfold fmtRfc3339TimeJson
    cases rfc3339Text gmtime n with
    | ok s => exact ⟨_, valueString_eq u s, reads_string s⟩
    | fail => trivial
    | fault f => rfl

theorem appends_name (w : Wdns) (n : Bytes) : Appends (fun u => nameJson w u n) (nameVal w n) := by
  intro u
  show Same _ (nameJson w u n) _
  unfold nameJson nameVal
  cases w.domainToStr n with
  | ok s => exact ⟨_, strAppend_eq u s, reads_string _⟩
  | fail => trivial
  | fault f => rfl

theorem reads_data (w : Wdns) (e : Entry) (d : Bytes) :
    Reads (34 :: ((cstr (w.rdataToStr d (e.rrtype % 65536))).flatMap escOf ++ [34])) (dataVal w e d) := reads_string _

theorem plain_of {k : Bytes} (h : decide (PlainKey k) = true) : PlainKey k := of_decide_eq_true h

theorem same_common {numbuf : Bytes} (hb : numbuf.length = 32) (gmtime : Int → Option Tm) (w : Wdns) (f : Formatter)
    {e : Entry} (h1 : e.count < 2 ^ 64) (h2 : e.timeFirst < 2 ^ 64) (h3 : e.timeLast < 2 ^ 64) {b : JBuf}
    (h : Holds b []) : Same Holds (jsonCommon numbuf gmtime w f e b) (commonVals gmtime w f e) := by
  have key : ∀ s1 s2 : String, PlainKey (lit s1) → PlainKey (lit s2) → Same Holds
      (do
        let b := b.decl "count"
        let b ← .ok (b.with (← appendJsonValueInt numbuf b.u e.count))
        let b := b.decl s1
        let b ← .ok (b.with (← timeJson numbuf gmtime f b.u e.timeFirst))
        let b := b.decl s2
        let b ← .ok (b.with (← timeJson numbuf gmtime f b.u e.timeLast))
        let b := b.decl "rrname"
        let b ← .ok (b.with (← nameJson w b.u e.name))
        let b := b.decl "rrtype"
        .ok (b.with (fmtRrtypeJson w b.u e.rrtype)))
      (do
        let c ← Out.ok (JVal.num e.count)
        let a ← timeVal gmtime f e.timeFirst
        let z ← timeVal gmtime f e.timeLast
        let n ← nameVal w e.name
        .ok [(lit "count", c), (lit s1, a), (lit s2, z), (lit "rrname", n),
          (lit "rrtype", .str (rrtypeText w e.rrtype))]) := by
    intro s1 s2 k1 k2
    simp only [Out.ok_bind (β := JBuf)]
    refine same_val h "count" (by decide +kernel) (appends_num hb h1) fun u v hb1 => ?_
    refine same_val hb1 s1 k1 (appends_time hb h2 gmtime f) fun u v hb2 => ?_
    refine same_val hb2 s2 k2 (appends_time hb h3 gmtime f) fun u v hb3 => ?_
    refine same_val hb3 "rrname" (by decide +kernel) (appends_name w e.name) fun u v hb4 => ?_
    show Holds _ _
    rw [rrtypeJson_eq]
    exact hb4.add (name := "rrtype") (by decide +kernel) (reads_string _)
  unfold jsonCommon commonVals
  cases hz : e.iszone
  · exact key "time_first" "time_last" (by decide +kernel) (by decide +kernel)
  · exact key "zone_time_first" "zone_time_last" (by decide +kernel) (by decide +kernel)

theorem reads_arr {α : Type} (f : α → Bytes) (g : α → JVal) (as : List α) (h : ∀ a ∈ as, Reads (f a) (g a)) :
    Reads (91 :: (itemsText (as.map f) ++ [93])) (.arr (as.map g)) := reads_array (matches_map f g as h)

theorem same_rrset (w : Wdns) (f : Formatter) (e : Entry) {b : JBuf} {vs : List (Bytes × JVal)} (h : Holds b vs) :
    Same (fun b r => Holds b (vs ++ r)) (jsonRrset w f e b) (rrsetVals w f e) := by
  unfold jsonRrset rrsetVals
  simp only [Out.ok_bind (β := JBuf)]
  refine same_val h "bailiwick" (by decide +kernel) (appends_name w e.bailiwick) fun u v hb1 => ?_
  generalize (b.decl "bailiwick").with u = b at hb1 ⊢
  have hb2 := hb1.add (name := "rdata") (by decide +kernel)
    (reads_arr _ _ e.rdatas fun d _ => reads_data w e d)
  have e2 : (((((b.decl "rdata").with ((b.decl "rdata").u ++ [91])).with
      (rdatasLoop w e.rrtype e.rdatas.length ((b.decl "rdata").u ++ [91]) 0 e.rdatas))).with
        (rdatasLoop w e.rrtype e.rdatas.length ((b.decl "rdata").u ++ [91]) 0 e.rdatas ++ [93])) =
      (b.decl "rdata").with ((b.decl "rdata").u ++ 91 :: (itemsText (e.rdatas.map fun d =>
        34 :: ((cstr (w.rdataToStr d (e.rrtype % 65536))).flatMap escOf ++ [34])) ++ [93])) := by
    rw [rdatasLoop_eq]; simp [JBuf.with]
  have e2' := e2
  simp only [JBuf.with] at e2' hb2 ⊢
  rw [e2']
  generalize hB : (JBuf.mk _ _ : JBuf) = B at hb2 ⊢
  by_cases hr : f.addRawRdata
  · rw [if_pos hr, if_pos hr]
    by_cases hd : e.rdatas = []
    · rw [if_neg (by simp [hd])]
      simp only [hd, List.length_nil, rawLoop, Out.ok_bind]
      have := hb2.add (name := "rdata_raw") (by decide +kernel) (reads_array (ts := []) (vs := []) trivial)
      simpa [hd, JBuf.with, itemsText, Same] using this
    · by_cases hl : 3 < (varintEncode32 e.rrtype).length
      · rw [if_pos ⟨hd, hl⟩, rawLoop_fault hl _ _ _ hd]
        rfl
      · rw [if_neg (by simp [hl]), rawLoop_eq (by omega)]
        simp only [Out.ok_bind]
        have := hb2.add (name := "rdata_raw") (by decide +kernel)
          (reads_arr _ _ e.rdatas fun d _ => reads_string (fmtHexStr [] (d ++ varintEncode32 e.rrtype)))
        simpa [JBuf.with, Same] using this
  · rw [if_neg hr, if_neg hr]
    simpa [Same] using hb2

theorem reads_arrIf (b : Bool) {t : Bytes} {v : JVal} (h : Reads t v) :
    Reads (arrIf b (arrIf b [] 91 ++ t) 93) (arrVal b v) := by
  cases b
  · simpa [arrIf, arrVal] using h
  · have := reads_array (ts := [t]) (vs := [v]) ⟨h, trivial⟩
    simpa [arrIf, arrVal, itemsText] using this

theorem same_rdata (w : Wdns) (f : Formatter) (e : Entry) {b : JBuf} {vs : List (Bytes × JVal)} (h : Holds b vs) :
    Same (fun b r => Holds b (vs ++ r)) (jsonRdata w f e b) (rdataVals w f e) := by
  unfold jsonRdata rdataVals
  split
  · next d hd =>
    have hb1 := h.add (name := "rdata") (by decide +kernel) (reads_arrIf f.alwaysArray (reads_data w e d))
    have e1 : ∀ (u t : Bytes) (c : Bool), arrIf c (arrIf c u 91 ++ t) 93 = u ++ arrIf c (arrIf c [] 91 ++ t) 93 := by
      intro u t c; cases c <;> simp [arrIf]
    rw [hd]
    simp only [strAppend_eq, JBuf.with]
    simp only [JBuf.with] at hb1
    rw [e1 (b.decl "rdata").u]
    by_cases hr : f.addRawRdata
    · rw [if_pos hr, if_pos hr]
      have := hb1.add (name := "rdata_raw") (by decide +kernel)
        (reads_arrIf f.alwaysArray (reads_string (fmtHexStr [] d)))
      rw [e1 (JBuf.decl _ "rdata_raw").u, cstr_hex]
      simpa [JBuf.with, Same] using this
    · rw [if_neg hr, if_neg hr]
      exact hb1
  · next hd =>
    split
    · next d hd' => exact absurd hd' (hd d)
    · trivial

theorem same_index (w : Wdns) (member : String) (hk : PlainKey (lit member)) (e : Entry) {b : JBuf}
    {vs : List (Bytes × JVal)} (h : Holds b vs) :
    Same (fun b r => Holds b (vs ++ r)) (jsonIndex w member e b) (do
      let n ← nameVal w e.name
      .ok [(lit member, n), (lit "rrtypes", typesVal w e)]) := by
  unfold jsonIndex
  simp only [Out.ok_bind (β := JBuf)]
  refine same_val h member hk (appends_name w e.name) fun u v hb1 => ?_
  generalize (b.decl member).with u = b at hb1 ⊢
  have hr : ∃ t, fmtRrtypesUnionJson w b.u e = declareJsonValue b.u (lit "rrtypes") false ++ t ∧ Reads t (typesVal w e) := by
    unfold fmtRrtypesUnionJson typesVal
    cases e.rrtypeMap with
    | none =>
      exact ⟨_, List.append_assoc .., reads_array (ts := []) (vs := []) trivial⟩
    | some map =>
      cases hu : unionUnpack map with
      | none =>
        simp only [hu]
        refine ⟨_, ?_, reads_array (ts := [_]) (vs := [.str (lit "<failure>")]) ⟨reads_string _, trivial⟩⟩
        simp only [strAppend_eq]
        rw [show cstr (lit "<failure>") = lit "<failure>" by decide +kernel]
        simp [itemsText]
      | some ts =>
        simp only [hu]
        refine ⟨_, ?_, reads_arr _ _ ts fun t _ => reads_string (rrtypeText w t)⟩
        simp only [rrtypesLoop_eq]
        simp
  obtain ⟨t, ht, hr⟩ := hr
  rw [ht]
  have := hb1.addMore (by simp) (k := lit "rrtypes") (by decide +kernel) hr
  simpa [Same] using this

theorem same_entry {numbuf : Bytes} (hb : numbuf.length = 32) (gmtime : Int → Option Tm) (w : Wdns) (f : Formatter)
    {e : Entry} (h1 : e.count < 2 ^ 64) (h2 : e.timeFirst < 2 ^ 64) (h3 : e.timeLast < 2 ^ 64) (h4 : e.version < 2 ^ 64) :
    Same (fun t vs => readJson t = some (.obj vs)) (entryToJsonFmt numbuf gmtime w f e) (entryVals gmtime w f e) := by
  have fin : ∀ {o : Out JBuf} {p : Out (List (Bytes × JVal))}, Same Holds o p →
      Same (fun t vs => readJson t = some (.obj vs)) (o >>= fun b => .ok (b.u ++ [125])) p := by
    intro o p h
    have := same_bind (f := fun b => Out.ok (b.u ++ [125])) (g := fun vs => Out.ok vs)
      (S := fun t vs => readJson t = some (.obj vs)) h fun b vs (hb : Holds b vs) => by exact hb.finish
    rwa [show (p >>= fun vs => Out.ok vs) = p by cases p <;> rfl] at this
  have two : ∀ {o : Out JBuf} {p q : Out (List (Bytes × JVal))} {g : JBuf → Out JBuf}, Same Holds o p →
      (∀ b vs, Holds b vs → Same (fun b r => Holds b (vs ++ r)) (g b) q) →
      Same Holds (o >>= g) (do let c ← p; let r ← q; .ok (c ++ r)) := by
    intro o p q g h hg
    refine same_bind h fun b vs hb => ?_
    have := same_bind (f := fun b => Out.ok b) (g := fun r => Out.ok (vs ++ r)) (S := Holds) (hg b vs hb) fun b r hb => hb
    rwa [show (g b >>= fun b => Out.ok b) = g b by cases g b <;> rfl] at this
  unfold entryToJsonFmt entryVals
  by_cases t0 : e.eType = tRRSET
  · rw [if_pos (.inl t0)]
    simp only [if_pos t0]
    have := fin (two (same_common hb gmtime w f h1 h2 h3 holds_start) fun b vs h => same_rrset w f e h)
    cases hc : jsonCommon numbuf gmtime w f e ⟨[123], 0⟩ <;> rw [hc] at this <;> exact this
  by_cases t2 : e.eType = tRDATA
  · rw [if_pos (.inr t2)]
    simp only [if_neg t0, if_pos t2]
    have := fin (two (same_common hb gmtime w f h1 h2 h3 holds_start) fun b vs h => same_rdata w f e h)
    cases hc : jsonCommon numbuf gmtime w f e ⟨[123], 0⟩ <;> rw [hc] at this <;> exact this
  rw [if_neg (by simp [t0, t2])]
  simp only [Out.ok_bind (β := Bytes), if_neg t0, if_neg t2]
  by_cases t1 : e.eType = tRRSET_NAME_FWD
  · rw [if_pos t1, if_pos t1]
    exact fin (same_index w "rrset_name" (by decide +kernel) e holds_start)
  rw [if_neg t1, if_neg t1]
  by_cases t3 : e.eType = tRDATA_NAME_REV
  · rw [if_pos t3, if_pos t3]
    exact fin (same_index w "rdata_name" (by decide +kernel) e holds_start)
  rw [if_neg t3, if_neg t3]
  by_cases t4 : e.eType = tTIME_RANGE
  · rw [if_pos t4, if_pos t4]
    refine fin ?_
    unfold jsonTimes
    simp only [Out.ok_bind (β := JBuf)]
    refine same_val holds_start "time_first" (by decide +kernel) (appends_time hb h2 gmtime f) fun u v hb1 => ?_
    exact same_val hb1 "time_last" (by decide +kernel) (appends_time hb h3 gmtime f) fun u v hb2 => hb2
  rw [if_neg t4, if_neg t4]
  by_cases t5 : e.eType = tSOURCE_INFO
  · rw [if_pos t5, if_pos t5]
    refine fin ?_
    unfold jsonSource
    cases e.sourceInfo with
    | none => rfl
    | some s =>
      simp only [strAppend_eq]
      exact holds_start.add (name := "source info") (by decide +kernel) (reads_string _)
  rw [if_neg t5, if_neg t5]
  by_cases t6 : e.eType = tVERSION
  · rw [if_pos t6, if_pos t6]
    refine fin ?_
    unfold jsonVersion
    have hb1 := holds_start.add (name := "entry_type") (by decide +kernel) (reads_string (cstr (kindText e)))
    rw [← strAppend_eq] at hb1
    exact same_val (val := .ok (.num e.version)) (S := Holds) hb1 "version" (by decide +kernel) (appends_num hb h4)
      (k' := fun v => .ok [(lit "entry_type", .str (cstr (kindText e))), (lit "version", v)]) fun b v hb2 => hb2
  rw [if_neg t6, if_neg t6]
  exact fin (o := .ok _) (p := .ok _) holds_start

end Verif
