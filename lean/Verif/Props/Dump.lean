import Verif.Model.Dump
import Verif.Spec.Dump
import Verif.Props.LookupRun
import Verif.Props.Reader

/-!
# What `dnstable_dump` prints (C56)

`dnstableDump F v file n w` is the program after at most `n` calls of `dnstable_iter_next`, with the options `F` and the
table `file`.
-/

namespace Verif.Props
open Spec

/-- The option variables for a command line with one section option, maybe `-j` and maybe `-R`. -/
def dumpFlags (json raw : Bool) : Sect → DumpFlags
  | .rrset => { json := json, addRaw := raw, rrset := true }
  | .rdata => { json := json, addRaw := raw, rdata := true }
  | .rrsetNames => { json := json, addRaw := raw, rrsetNames := true }
  | .rdataNames => { json := json, addRaw := raw, rdataNames := true }
  | .timeRange => { json := json, addRaw := raw, timeRange := true }
  | .version => { json := json, addRaw := raw, version := true }
  | .sourceInfo => { json := json, addRaw := raw, sourceInfo := true }

/-- What a run shows of the records `xs`, `Ok` being what is to be printed for a list of them: a record for every call,
and a successful end after the last one. -/
def Dumped (Ok : List Rec → Bytes → Prop) (xs : List Rec) (n : Nat) : DumpState → Prop
  | .running out => n ≤ xs.length ∧ Ok (xs.take n) out
  | .exit success out => xs.length < n ∧ success = true ∧ Ok xs out
  | .fault _ => False

theorem Dumped.mono {Ok Ok' : List Rec → Bytes → Prop} {xs : List Rec} {n : Nat}
    (h : ∀ ys s, (∀ x ∈ ys, x ∈ xs) → Ok ys s → Ok' ys s) :
    ∀ {x : DumpState}, Dumped Ok xs n x → Dumped Ok' xs n x
  | .running _, ⟨h1, h2⟩ => ⟨h1, h _ _ (fun _ => List.mem_of_mem_take) h2⟩
  | .exit _ _, ⟨h1, h2, h3⟩ => ⟨h1, h2, h _ _ (fun _ => id) h3⟩

/-- The loop, from the results of the iterator. -/
theorem sectionLoop_spec {F : DumpFlags} {v : Printer} {R : Src} {text : Entry → Bytes} :
    ∀ (n : Nat) (s : View × Table) (w : World) (ys : List Rec) (out : Bytes),
      (∀ x ∈ ys, dumpEntry F v x.entry = .ok (text x.entry)) →
      (∃ m, n ≤ m ∧
        readerRun R n s w = ((ys.map fun x => QRes.entry x.entry) ++ List.replicate m QRes.failure).take n) →
      sectionLoop F v R n s w out =
        if n ≤ ys.length then .running (out ++ (ys.take n).flatMap fun x => text x.entry)
        else .exit true (out ++ ys.flatMap fun x => text x.entry)
  | 0, s, w, ys, out, _, _ => by simp [sectionLoop]
  | n + 1, s, w, ys, out, ht, ⟨m, hm, h⟩ => by
    unfold readerRun at h
    unfold sectionLoop
    revert h
    generalize readerNext R s w = x
    obtain ⟨r, s', w'⟩ := x
    intro h
    cases ys with
    | nil =>
      obtain ⟨m, rfl⟩ : ∃ k, m = k + 1 := ⟨m - 1, by omega⟩
      simp only [List.map_nil, List.nil_append, List.replicate_succ, List.take_succ_cons, List.cons.injEq] at h
      rw [h.1]
      simp
    | cons y ys =>
      simp only [List.map_cons, List.cons_append, List.take_succ_cons, List.cons.injEq] at h
      rw [h.1]
      simp only
      rw [ht y List.mem_cons_self]
      simp only
      rw [sectionLoop_spec n s' w' ys _ (fun x hx => ht x (List.mem_cons_of_mem _ hx)) ⟨m, by omega, h.2⟩]
      simp only [List.length_cons, Nat.add_le_add_iff_right, List.take_succ_cons, List.flatMap_cons, List.append_assoc]

theorem dumpKind_section (json raw : Bool) (sec : Sect) :
    ∃ t, dumpKind (dumpFlags json raw sec) = some t ∧ ∀ x : Rec, (x.key.head? == some t) = sec.has x := by
  cases sec
  · exact ⟨0, rfl, fun x => by cases x <;> rfl⟩
  · exact ⟨2, rfl, fun x => by cases x <;> rfl⟩
  · exact ⟨1, rfl, fun x => by cases x <;> rfl⟩
  · exact ⟨3, rfl, fun x => by cases x <;> rfl⟩
  · exact ⟨254, rfl, fun x => by cases x <;> rfl⟩
  · exact ⟨255, rfl, fun x => by cases x <;> rfl⟩
  · exact ⟨253, rfl, fun x => by cases x <;> rfl⟩

/-- C56, refusals.  The program refuses `-R` without `-j` and for sections other than `-r` and `-d`, before writing
anything. -/
theorem C56_refuses {json : Bool} {sec : Sect} (h : json = false ∨ sec.full = false) (v : Printer) (file : Option Src)
    (n : Nat) (w : World) : dnstableDump (dumpFlags json true sec) v file n w = .exit false [] := by
  unfold dnstableDump
  rw [if_pos]
  cases json <;> cases sec <;> simp [Sect.full] at h <;> rfl

/-- C56, unreadable files: exit with failure, nothing written. -/
theorem C56_unreadable (F : DumpFlags) (v : Printer) (n : Nat) (w : World) :
    dnstableDump F v none n w = .exit false [] := by
  unfold dnstableDump
  split <;> rfl

/-- C56.  Otherwise it prints exactly the records of the section, each once and in table order, and ends successfully
after the last one. -/
theorem C56_prints {Ts : List Rec} (hS : Stored Ts) (sf : View → Bytes → Bool) {json raw : Bool} {sec : Sect}
    (hr : raw = true → json = true ∧ sec.full = true) {v : Printer} {text : Entry → Bytes}
    (ht : ∀ x ∈ Ts, sec.has x = true → dumpEntry (dumpFlags json raw sec) v x.entry = .ok (text x.entry)) (n : Nat) (w : World) :
    Dumped (fun ys s => s = ys.flatMap fun x => text x.entry) (Ts.filter sec.has) n
      (dnstableDump (dumpFlags json raw sec) v (some ⟨rowsOf Ts, sf⟩) n w) := by
  obtain ⟨t, h1, h2⟩ := dumpKind_section json raw sec
  obtain ⟨s, h3, h4⟩ := C45_stored hS sf (some t) n w
  have hf : Ts.filter (fun x => (some t).all fun t => x.key.head? == some t) = Ts.filter sec.has := by
    congr 1; funext x; exact h2 x
  rw [hf] at h4
  unfold dnstableDump
  rw [if_neg]
  · simp only [h1, h3]
    rw [sectionLoop_spec n s w _ [] (fun x hx => ht x (List.mem_filter.1 hx).1 (List.mem_filter.1 hx).2)
      ⟨n, Nat.le_refl _, h4⟩]
    split
    · next h => exact ⟨h, rfl⟩
    · next h => exact ⟨by omega, rfl, rfl⟩
  · cases raw with
    | false => cases sec <;> simp [dumpRefuses, dumpFlags]
    | true =>
      obtain ⟨rfl, h⟩ := hr rfl
      cases sec <;> simp [Sect.full] at h <;> simp [dumpRefuses, dumpFlags]

theorem dumpFlags_json (json raw : Bool) (sec : Sect) : (dumpFlags json raw sec).json = json := by cases sec <;> rfl
theorem dumpFlags_raw (json raw : Bool) (sec : Sect) : (dumpFlags json raw sec).addRaw = raw := by cases sec <;> rfl

theorem dumpTypes_rec (x : Rec) : dumpTypes.contains x.entry.getType = true := by cases x <;> rfl

section
variable {v : Printer} {T : Texts}

/-- One record as text. -/
theorem dumped_lines (hg : GmtimeOk v.gmtime) (hL : LocaleOk v.locale) (hS : LocaleStrings v.locale)
    (hw : TextsOk v.wdns T) (hT : LineTexts T) {F : DumpFlags} (hF : F.json = false) {x : Rec} (hx : x.legal)
    (hp : Printable x) : ∃ s, dumpEntry F v x.entry = .ok s ∧ HasLines s (dumpLines T x) := by
  obtain ⟨e, text, h1, h2, h3⟩ := C51_plain_partial hg hL hw hT false x hx hp
  rw [Rec.decode hx] at h1
  cases h1
  rw [entry_plain] at h2
  have h0 := entryToText_nonul _ hS (fun n hn => (hL.grouped n hn).2.1) _ (entry_count hx) h2
  unfold dumpEntry dumpString
  rw [if_pos (dumpTypes_rec x), if_neg (by simp [hF]), h2]
  simp only
  rw [cstr_eq (fun c hc e => h0 (e ▸ hc))]
  refine ⟨_, rfl, ?_⟩
  unfold dumpLines
  simp only [hF]
  cases x with
  | rr r o =>
    split
    · next h => exact Bool.noConfusion (show false = true from h)
    · simpa using h3
  | _ =>
    rw [if_pos (by rfl)]
    exact hasLines_append h3 hasLines_empty

/-- One record as JSON. -/
theorem dumped_json (hb : v.numbuf.length = 32) (hg : GmtimeOk v.gmtime) (hw : TextsOk v.wdns T) {F : DumpFlags}
    (hF : F.json = true) {x : Rec} (hx : x.legal) (hp : Presentable ⟨true, false, F.addRaw⟩ x) :
    ∃ s, dumpEntry F v x.entry = .ok (s ++ [10]) ∧ 10 ∉ s ∧ Shows s (shown T ⟨true, false, F.addRaw⟩ false x) := by
  obtain ⟨e, text, h1, h2, h3⟩ := C39_formatter_partial (L := v.locale) hb hg hw
    (((({} : Formatter).setOutputFormat true).setDateFormat true).setRawRdata F.addRaw)
    (.inr ⟨{ unixDates := true, addRawRdata := F.addRaw }, rfl⟩) false x hx hp
  rw [Rec.decode hx] at h1
  cases h1
  rw [entry_plain] at h2
  obtain ⟨vs, h4, h5⟩ := h3
  have hcl := readJson_clean h4
  refine ⟨text, ?_, fun h => absurd (hcl _ h) (by decide), vs, h4, h5⟩
  unfold dumpEntry dumpString
  rw [if_pos (dumpTypes_rec x), if_pos hF, h2]
  simp only
  rw [cstr_eq (fun c hc e => absurd (hcl c hc) (by subst e; decide)), if_pos (by simp [hF])]

/-- The text dumped, as a function. -/
def dumpText (F : DumpFlags) (v : Printer) (e : Entry) : Bytes :=
  match dumpEntry F v e with | .ok s => s | _ => []

theorem dumpText_ok {F : DumpFlags} {e : Entry} {s : Bytes} (h : dumpEntry F v e = .ok s) :
    dumpEntry F v e = .ok (dumpText F v e) := by unfold dumpText; rw [h]

/-- C56, text.  Without `-j` the program writes the text forms of the records of the section, with an empty line after
each of them except for resource records seen from their data.  Partial: the records have to be printable (see C51). -/
theorem C56_text_partial {Ts : List Rec} (hS : Stored Ts) (sf : View → Bytes → Bool) {sec : Sect}
    (hp : ∀ x ∈ Ts, sec.has x = true → Printable x)
    (hg : GmtimeOk v.gmtime) (hL : LocaleOk v.locale) (hLS : LocaleStrings v.locale)
    (hw : TextsOk v.wdns T) (hl : LineTexts T) (n : Nat) (w : World) :
    Dumped (fun ys s => HasLines s (ys.flatMap (dumpLines T))) (Ts.filter sec.has) n
      (dnstableDump (dumpFlags false false sec) v (some ⟨rowsOf Ts, sf⟩) n w) := by
  have one := fun x hx hs => dumped_lines hg hL hLS hw hl (dumpFlags_json false false sec) (hS.legal x hx) (hp x hx hs)
  refine (C56_prints hS sf (text := dumpText (dumpFlags false false sec) v) (fun h => by cases h)
    (fun x hx hs => (one x hx hs).elim fun s h => dumpText_ok h.1) n w).mono ?_
  rintro ys s hys rfl
  induction ys with
  | nil => exact ⟨[], rfl, by simp, trivial⟩
  | cons y ys ih =>
    obtain ⟨h3, h4⟩ := List.mem_filter.1 (hys y List.mem_cons_self)
    obtain ⟨s, h1, h2⟩ := one y h3 h4
    have : dumpText (dumpFlags false false sec) v y.entry = s := by unfold dumpText; rw [h1]
    simp only [List.flatMap_cons, this]
    exact hasLines_append h2 (ih fun x hx => hys x (List.mem_cons_of_mem _ hx))

/-- C56, JSON.  With `-j` the program writes one line with a JSON object for every record of the section, with times in
seconds, and with the raw data exactly with `-R`.  Partial: the records have to be presentable (see C39). -/
theorem C56_json_partial {Ts : List Rec} (hS : Stored Ts) (sf : View → Bytes → Bool) {raw : Bool} {sec : Sect}
    (hr : raw = true → sec.full = true) (hp : ∀ x ∈ Ts, sec.has x = true → Presentable ⟨true, false, raw⟩ x)
    (hb : v.numbuf.length = 32) (hg : GmtimeOk v.gmtime) (hw : TextsOk v.wdns T) (n : Nat) (w : World) :
    Dumped (fun ys s => JsonLines T ⟨true, false, raw⟩ ys s) (Ts.filter sec.has) n
      (dnstableDump (dumpFlags true raw sec) v (some ⟨rowsOf Ts, sf⟩) n w) := by
  have hf := dumpFlags_raw true raw sec
  have one := fun x hx hs => dumped_json hb hg hw (dumpFlags_json true raw sec) (hS.legal x hx) (hf.symm ▸ hp x hx hs)
  rw [hf] at one
  refine (C56_prints hS sf (text := dumpText (dumpFlags true raw sec) v) (fun h => ⟨rfl, hr h⟩)
    (fun x hx hs => (one x hx hs).elim fun s h => dumpText_ok h.1) n w).mono ?_
  rintro ys s hys rfl
  induction ys with
  | nil => exact ⟨[], rfl, by simp, trivial⟩
  | cons y ys ih =>
    obtain ⟨h4, h5⟩ := List.mem_filter.1 (hys y List.mem_cons_self)
    obtain ⟨s, h1, h2, h3⟩ := one y h4 h5
    have e : dumpText (dumpFlags true raw sec) v y.entry = s ++ [10] := by unfold dumpText; rw [h1]
    obtain ⟨ss, g1, g2, g3⟩ := ih fun x hx => hys x (List.mem_cons_of_mem _ hx)
    refine ⟨s :: ss, ?_, ?_, ⟨h3, g3⟩⟩
    · simp only [List.flatMap_cons, e, g1]
    · intro t ht
      rcases List.mem_cons.1 ht with rfl | ht
      · exact h2
      · exact g2 t ht

end

/-! ## Examples -/

/-- Two records of every kind that can have two. -/
def exDump : List Rec :=
  [.rrset ⟨exWww, 1, exCom, [[9, 9, 9, 9]]⟩ ⟨6, 9, 3⟩,
   .rrset ⟨exWww, 6, exCom, [[0]]⟩ ⟨6, 9, 3⟩,
   .fwd exCom none,
   .fwd exWww (some (.bitmap [⟨0, [0x62]⟩])),
   .rr ⟨[], 2, [], wire [[97], [99, 111, 109]]⟩ ⟨5, 9, 1⟩,
   .rr ⟨[], 2, [], wire exCom⟩ ⟨5, 9, 1⟩,
   .rev exCom none,
   .rev [[97], [99, 111, 109]] (some (.bitmap [⟨0, [0x22]⟩])),
   .sourceInfo (ascii "sensor"),
   .timeRange 5 9,
   .version 0 1,
   .version 1 2]

theorem exDump_stored : Stored exDump := by
  refine ⟨?_, by decide +kernel⟩
  intro x hx
  simp only [exDump, List.mem_cons, List.not_mem_nil, or_false] at hx
  rcases hx with rfl | rfl | rfl | rfl | rfl | rfl | rfl | rfl | rfl | rfl | rfl | rfl <;> simp only [Rec.legal] <;>
    decide +kernel

theorem exDump_printable : ∀ x ∈ exDump, Printable x := by
  intro x hx
  simp only [exDump, List.mem_cons, List.not_mem_nil, or_false] at hx
  rcases hx with rfl | rfl | rfl | rfl | rfl | rfl | rfl | rfl | rfl | rfl | rfl | rfl <;>
    first
      | exact fun t h => by cases h; exact ⟨0, by decide, by decide +kernel⟩
      | (unfold Printable; decide +kernel)

/-- The hypotheses of the theorems are met, for every section. -/
example : ∃ v : Printer, ∀ (sec : Sect) (n : Nat) (w : World),
    Dumped (fun ys s => HasLines s (ys.flatMap (dumpLines exTexts))) (exDump.filter sec.has) n
      (dnstableDump (dumpFlags false false sec) v (some ⟨rowsOf exDump, fun _ _ => false⟩) n w) := by
  obtain ⟨g, hg⟩ := gmtime_exists
  exact ⟨⟨List.replicate 32 0, g, exLocale [44], exWdns⟩, fun sec n w =>
    C56_text_partial exDump_stored (fun _ _ => false) (fun x hx _ => exDump_printable x hx) hg
      (exLocale_ok (by decide) (by decide) (by decide)) exLocale_strings exTexts_ok exTexts_lines n w⟩

example : ∃ v : Printer, ∀ (n : Nat) (w : World),
    Dumped (fun ys s => JsonLines exTexts ⟨true, false, true⟩ ys s) (exDump.filter Sect.rdata.has) n
      (dnstableDump (dumpFlags true true .rdata) v (some ⟨rowsOf exDump, fun _ _ => false⟩) n w) := by
  obtain ⟨g, hg⟩ := gmtime_exists
  refine ⟨⟨List.replicate 32 0, g, exLocale [44], exWdns⟩, fun n w =>
    C56_json_partial exDump_stored (fun _ _ => false) (fun _ => rfl) ?_ (by simp) hg exTexts_ok n w⟩
  intro x hx hs
  simp only [exDump, List.mem_cons, List.not_mem_nil, or_false] at hx
  rcases hx with rfl | rfl | rfl | rfl | rfl | rfl | rfl | rfl | rfl | rfl | rfl | rfl <;>
    first | (cases hs; done) | exact fun _ => by decide +kernel

/-- What is written for the two sections that hold one record each, and for `-v`. -/
example :
    let d := fun sec json => dnstableDump (dumpFlags json false sec) exPrinter (some ⟨rowsOf exDump, fun _ _ => false⟩) 9 (exWorld 0)
    d .sourceInfo false = .exit true (ascii ";; source info: sensor\n\n") ∧
    d .timeRange true = .exit true (ascii "{\"time_first\":5,\"time_last\":9}\n") ∧
    d .version false = .exit true (ascii ";; Version type rrset: 1\n\n;; Version type rrset_name: 2\n\n") := by
  refine ⟨?_, ?_, ?_⟩ <;> decide +kernel

end Verif.Props
