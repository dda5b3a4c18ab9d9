import Verif.Lemmas.Argv
import Verif.Props.Dump

/-!
# What the command line of `dnstable_dump` does (C63)

`dumpProgram W tables v n w` is the program started in `W` (arguments, environment, files of arguments, standard input)
after at most `n` calls of `dnstable_iter_next`; `tables` are the tables that can be opened.  `dumpWords W` is what the
arguments say, those in the environment first.
-/

namespace Verif.Props
open Spec

/-- What the arguments say. -/
def dumpWords (W : ArgWorld) : List DumpWord :=
  commandWords false (environmentArgs W.getenv W.argv0) ++ commandWords false W.args

/-- The settings of the argument library are not changed, and no argument is strange. -/
structure UsualStart (W : ArgWorld) : Prop where
  settings : W.getenv (lit "GLOBAL_ARGV") = none
  words : ∀ w ∈ dumpWords W, w.usual = true

variable {W : ArgWorld} {tables : Bytes → Option Src} {v : Printer}

theorem dumpProgram_words (hW : UsualStart W) (n : Nat) (w : World) :
    dumpProgram W tables v n w =
      match dumpCommand (dumpWords W) with
      | .exit b => .exit b []
      | .run on f => dnstableDump (flagsOf on) v (tables f) n w := by
  unfold dumpProgram
  rw [argvProcess_words W hW.settings (dumpWords W) (by rw [envArgs_words]; rfl) hW.words]
  cases dumpCommand (dumpWords W) <;> rfl

/-- C63, nothing to do.  When help is asked for the program ends successfully; when something is wrong, or not exactly
one section and one file are named, it ends with failure.  It prints nothing then, whatever the files hold.  Partial:
the arguments have to be usual ones. -/
theorem C63_exit_partial (hW : UsualStart W) {b : Bool} (h : dumpCommand (dumpWords W) = .exit b) (n : Nat) (w : World) :
    dumpProgram W tables v n w = .exit b [] := by
  rw [dumpProgram_words hW, h]

theorem dumpCommand_run {ws : List DumpWord} {on : DumpOpt → Bool} {f : Bytes} (h : dumpCommand ws = .run on f) :
    .help ∉ ws ∧ .wrong ∉ ws ∧ on = turnedOn ws ∧ fileNames ws = [f] ∧ ∃ s, sectionsNamed ws = [s] := by
  unfold dumpCommand at h
  split at h
  · cases h
  · next h1 =>
    split at h
    · cases h
    · next h2 =>
      split at h
      · next s f' h3 h4 =>
        cases h
        exact ⟨h1, h2, rfl, h4, s, h3⟩
      · cases h

theorem turnedOn_named {ws : List DumpWord} {o : DumpOpt} (h : turnedOn ws o = true) : named ws o = true := by
  unfold turnedOn at h
  unfold named
  cases hv : valuesGiven o ws with
  | nil => rw [hv] at h; cases h
  | cons x xs => rfl

theorem Sect.mem_all (s : Sect) : s ∈ Sect.all := by cases s <;> decide

/-- Only the section named can be on. -/
theorem section_only {ws : List DumpWord} {s s' : Sect} (h : sectionsNamed ws = [s])
    (hs : turnedOn ws (.sect s') = true) : s' = s := by
  have : s' ∈ sectionsNamed ws := List.mem_filter.2 ⟨Sect.mem_all s', turnedOn_named hs⟩
  rw [h] at this
  exact List.mem_singleton.1 this

theorem flagsOf_section {ws : List DumpWord} {s s' : Sect} (h : sectionsNamed ws = [s])
    (hs : turnedOn ws (.sect s') = true) :
    flagsOf (turnedOn ws) = dumpFlags (turnedOn ws .json) (turnedOn ws .raw) s' := by
  have e := section_only h hs
  subst e
  have off : ∀ t, t ≠ s' → turnedOn ws (.sect t) = false := by
    intro t ht
    cases hx : turnedOn ws (.sect t) with
    | false => rfl
    | true => exact absurd (section_only h hx) ht
  unfold flagsOf
  cases s' <;> simp only [dumpFlags, hs, off, ne_eq, reduceCtorEq, not_false_eq_true]

/-- C63, dumps.  Otherwise the program dumps the section that is on, from the file named, with the options `-j` and `-R`
as they were given last (what it prints is C56).  Partial: the arguments have to be usual ones, and the section option
must not have been turned off again. -/
theorem C63_run_partial (hW : UsualStart W) {on : DumpOpt → Bool} {f : Bytes}
    (h : dumpCommand (dumpWords W) = .run on f) {sec : Sect} (hs : on (.sect sec) = true) (n : Nat) (w : World) :
    dumpProgram W tables v n w = dnstableDump (dumpFlags (on .json) (on .raw) sec) v (tables f) n w := by
  rw [dumpProgram_words hW, h]
  obtain ⟨-, -, rfl, -, s, h1⟩ := dumpCommand_run h
  rw [← flagsOf_section h1 hs]

/-- C63, without values.  When no option is given a value, the program ends without printing anything, or dumps one
section; so it reads no other file and never stops in another way than a dump does.  Partial: the arguments have to be
usual ones. -/
theorem C63_novalues_partial (hW : UsualStart W) (hv : ∀ o x, DumpWord.use o (some x) ∉ dumpWords W) :
    (∃ b, dumpCommand (dumpWords W) = .exit b ∧ ∀ n w, dumpProgram W tables v n w = .exit b []) ∨
    ∃ sec f, sectionsNamed (dumpWords W) = [sec] ∧ fileNames (dumpWords W) = [f] ∧
      ∀ n w, dumpProgram W tables v n w =
        dnstableDump (dumpFlags (named (dumpWords W) .json) (named (dumpWords W) .raw) sec) v (tables f) n w := by
  have hn : ∀ o, turnedOn (dumpWords W) o = named (dumpWords W) o := by
    intro o
    have h1 : ∀ x ∈ valuesGiven o (dumpWords W), x = none := by
      intro x hx
      obtain ⟨u, hu, hx⟩ := List.mem_filterMap.1 hx
      cases u with
      | use o' y =>
        cases y with
        | none =>
          simp only at hx
          split at hx
          · cases hx; rfl
          · cases hx
        | some y => exact absurd hu (hv o' y)
      | _ => cases hx
    unfold turnedOn named
    cases hl : (valuesGiven o (dumpWords W)).getLast? with
    | none => rw [List.getLast?_eq_none_iff.1 hl]; rfl
    | some x =>
      have := h1 x (List.mem_of_getLast? hl)
      subst this
      cases h2 : valuesGiven o (dumpWords W) with
      | nil => rw [h2] at hl; cases hl
      | cons y ys => rfl
  cases h : dumpCommand (dumpWords W) with
  | exit b => exact .inl ⟨b, rfl, fun n w => C63_exit_partial hW h n w⟩
  | run on f =>
    obtain ⟨-, -, rfl, h2, s, h1⟩ := dumpCommand_run h
    have hs : turnedOn (dumpWords W) (.sect s) = true := by
      rw [hn]
      have : s ∈ sectionsNamed (dumpWords W) := by rw [h1]; simp
      exact (List.mem_filter.1 this).2
    refine .inr ⟨s, f, h1, h2, fun n w => ?_⟩
    rw [C63_run_partial hW h hs, hn, hn]

/-- C63 and C56: what is printed for a command line without `-j` and `-R`.  Partial: as C63 and C56. -/
theorem C63_text_partial (hW : UsualStart W) {on : DumpOpt → Bool} {f : Bytes}
    (h : dumpCommand (dumpWords W) = .run on f) {sec : Sect} (hs : on (.sect sec) = true)
    (hj : on .json = false) (hr : on .raw = false) {T : Texts} {Ts : List Rec} (hS : Stored Ts) {sf : View → Bytes → Bool}
    (hf : tables f = some ⟨rowsOf Ts, sf⟩) (hp : ∀ x ∈ Ts, sec.has x = true → Printable x)
    (hg : GmtimeOk v.gmtime) (hL : LocaleOk v.locale) (hLS : LocaleStrings v.locale)
    (hw : TextsOk v.wdns T) (hl : LineTexts T) (n : Nat) (w : World) :
    Dumped (fun ys s => HasLines s (ys.flatMap (dumpLines T))) (Ts.filter sec.has) n (dumpProgram W tables v n w) := by
  rw [C63_run_partial hW h hs, hj, hr, hf]
  exact C56_text_partial hS sf hp hg hL hLS hw hl n w

/-- C63 and C56: what is printed for a command line with `-j`.  Partial: as C63 and C56. -/
theorem C63_json_partial (hW : UsualStart W) {on : DumpOpt → Bool} {f : Bytes}
    (h : dumpCommand (dumpWords W) = .run on f) {sec : Sect} (hs : on (.sect sec) = true)
    (hj : on .json = true) (hr : on .raw = true → sec.full = true) {T : Texts} {Ts : List Rec} (hS : Stored Ts)
    {sf : View → Bytes → Bool} (hf : tables f = some ⟨rowsOf Ts, sf⟩)
    (hp : ∀ x ∈ Ts, sec.has x = true → Presentable ⟨true, false, on .raw⟩ x)
    (hb : v.numbuf.length = 32) (hg : GmtimeOk v.gmtime) (hw : TextsOk v.wdns T) (n : Nat) (w : World) :
    Dumped (fun ys s => JsonLines T ⟨true, false, on .raw⟩ ys s) (Ts.filter sec.has) n
      (dumpProgram W tables v n w) := by
  rw [C63_run_partial hW h hs, hj, hf]
  exact C56_json_partial hS sf hr hp hb hg hw n w

/-! ## Command lines that break the program -/

/-- With the section option turned off (`-r=no FILE`) the program stops with a failed assertion, for every table. -/
theorem C63_off (hW : UsualStart W) {on : DumpOpt → Bool} {f : Bytes}
    (h : dumpCommand (dumpWords W) = .run on f) (hs : ∀ sec, on (.sect sec) = false) (hr : on .raw = false)
    {R : Src} (hf : tables f = some R) (n : Nat) (w : World) : dumpProgram W tables v n w = .fault .abort := by
  rw [dumpProgram_words hW, h]
  show dnstableDump (flagsOf on) v (tables f) n w = _
  rw [hf]
  have h1 : dumpRefuses (flagsOf on) = false := by simp [dumpRefuses, flagsOf, hr]
  have h2 : dumpKind (flagsOf on) = none := by simp [dumpKind, flagsOf, hs]
  unfold dnstableDump
  rw [h1, h2]
  rfl

/-- A program started with arguments only. -/
def plainStart (args : List Bytes) : ArgWorld := { argv0 := lit "dnstable_dump", args := args }

/-- C63, counterexample: usual arguments that name one section and one file abort the program. -/
theorem C63_value_counterexample :
    ∃ W : ArgWorld, UsualStart W ∧ (sectionsNamed (dumpWords W)).length = 1 ∧ (fileNames (dumpWords W)).length = 1 ∧
      .wrong ∉ dumpWords W ∧ ∀ (R : Src) (v : Printer) (n : Nat) (w : World),
        dumpProgram W (fun _ => some R) v n w = .fault .abort := by
  have hW : UsualStart (plainStart [lit "-r=no", lit "x.mtbl"]) := ⟨rfl, by decide +kernel⟩
  refine ⟨_, hW, by decide +kernel, by decide +kernel, by decide +kernel, fun R v n w => ?_⟩
  refine C63_off hW (f := lit "x.mtbl") (on := turnedOn (dumpWords (plainStart [lit "-r=no", lit "x.mtbl"]))) ?_ ?_ ?_
    rfl n w
  · rfl
  · intro sec; cases sec <;> decide +kernel
  · decide +kernel

/-- C63, counterexample: dnstable_dump(1) has `--rrset` and `--rdata` in its synopsis; both are refused. -/
theorem C63_manual_counterexample (tables : Bytes → Option Src) (v : Printer) (f : Bytes) (n : Nat) (w : World) :
    dumpProgram (plainStart [lit "--rrset", lit "--", f]) tables v n w = .exit false [] ∧
    dumpProgram (plainStart [lit "--rdata", lit "--", f]) tables v n w = .exit false [] := by
  have h1 : dumpWords (plainStart [lit "--rrset", lit "--", f]) = [.wrong, .file f] := by
    have e : argWords false (lit "--rrset") = [.wrong] := by decide +kernel
    have e' : lit "--rrset" ≠ lit "--" := by decide
    have e'' : argWords true f = [.file f] := by simp [argWords]
    simp [dumpWords, plainStart, environmentArgs, commandWords, e, e', e'']
  have h2 : dumpWords (plainStart [lit "--rdata", lit "--", f]) = [.wrong, .file f] := by
    have e : argWords false (lit "--rdata") = [.wrong] := by decide +kernel
    have e' : lit "--rdata" ≠ lit "--" := by decide
    have e'' : argWords true f = [.file f] := by simp [argWords]
    simp [dumpWords, plainStart, environmentArgs, commandWords, e, e', e'']
  constructor
  · exact C63_exit_partial ⟨rfl, by rw [h1]; simp [DumpWord.usual]⟩ (by rw [h1]; simp [dumpCommand]) n w
  · exact C63_exit_partial ⟨rfl, by rw [h2]; simp [DumpWord.usual]⟩ (by rw [h2]; simp [dumpCommand]) n w

/-- C63, counterexample: the bytes that mark entries of the option table are taken for options.  `-\376` reads beyond
the table, and `-\373\373\373` writes beyond the queue of options that wait for values. -/
theorem C63_letter_counterexample (tables : Bytes → Option Src) (v : Printer) (n : Nat) (w : World) :
    dumpProgram (plainStart [[45, 254]]) tables v n w = .fault .oobRead ∧
    dumpProgram (plainStart [[45, 251, 251, 251]]) tables v n w = .fault .oobWrite := by
  constructor <;> rfl

/-- C63, counterexample: a negative number after `--argv-file` makes the program follow a null pointer.  Anything else that
begins with `-` and is no option is refused, for example `-1x`. -/
theorem C63_indirect_counterexample (tables : Bytes → Option Src) (v : Printer) (n : Nat) (w : World) :
    dumpProgram (plainStart [lit "--argv-file", lit "-1"]) tables v n w = .fault .nullDeref ∧
    dumpProgram (plainStart [lit "--argv-file", lit "-1x"]) tables v n w = .exit false [] := by
  constructor <;> rfl

/-! ## Examples -/

/-- Options in the environment, together, abbreviated, and turned off again; `--` before a name that begins with `-`. -/
def exStart : ArgWorld :=
  { argv0 := lit "/usr/bin/dnstable_dump"
    args := [lit "-jR", lit "--rdata_f", lit "--raw=no", lit "--", lit "-x"]
    getenv := fun n => if n = lit "ARGV_DNSTABLE_DUMP" then some (lit " -d\t-j=off") else none }

theorem exStart_usual : UsualStart exStart := ⟨by decide +kernel, by decide +kernel⟩

theorem exStart_words : dumpWords exStart =
    [.use (.sect .rdata) none, .use .json (some (lit "off")), .use .json none, .use .raw none, .use (.sect .rdata) none,
     .use .raw (some (lit "no")), .file (lit "-x")] := by decide +kernel

/-- The hypotheses of the theorems are met. -/
example : ∃ on, dumpCommand (dumpWords exStart) = .run on (lit "-x") ∧ on .json = true ∧ on .raw = false ∧
    on (.sect .rdata) = true ∧ on (.sect .rrset) = false :=
  ⟨turnedOn (dumpWords exStart), by rw [exStart_words]; rfl, by decide +kernel, by decide +kernel, by decide +kernel, by decide +kernel⟩

example (v : Printer) (R : Src) (n : Nat) (w : World) :
    dumpProgram exStart (fun f => if f = lit "-x" then some R else none) v n w =
      dnstableDump { json := true, rdata := true } v (some R) n w := by
  rw [C63_run_partial exStart_usual (on := turnedOn (dumpWords exStart)) (f := lit "-x") (sec := .rdata)
    (by rw [exStart_words]; rfl) (by decide +kernel)]
  have h1 : turnedOn (dumpWords exStart) .json = true := by decide +kernel
  have h2 : turnedOn (dumpWords exStart) .raw = false := by decide +kernel
  rw [h1, h2]
  rfl

/-- Help, nothing, two sections, two files, an unknown option, an ambiguous one. -/
example :
    let c := fun args => dumpProgram (plainStart args) (fun _ => none) exPrinter 9 (exWorld 0)
    c [lit "-z", lit "--help"] = .exit true [] ∧ c [] = .exit false [] ∧ c [lit "-rd", lit "x"] = .exit false [] ∧
    c [lit "-r", lit "x", lit "y"] = .exit false [] ∧ c [lit "-rz", lit "x"] = .exit false [] ∧
    c [lit "--r", lit "x"] = .exit false [] := by
  refine ⟨?_, ?_, ?_, ?_, ?_, ?_⟩ <;> exact C63_exit_partial ⟨rfl, by decide +kernel⟩ rfl 9 _

/-- A dump from the command line to the output. -/
example :
    dumpProgram (plainStart [lit "-v", lit "x"]) (fun _ => some ⟨rowsOf exDump, fun _ _ => false⟩) exPrinter 9
      (exWorld 0) = .exit true (ascii ";; Version type rrset: 1\n\n;; Version type rrset_name: 2\n\n") := by
  decide +kernel

example : ∃ v : Printer, ∀ (n : Nat) (w : World),
    Dumped (fun ys s => HasLines s (ys.flatMap (dumpLines exTexts))) (exDump.filter Sect.version.has) n
      (dumpProgram (plainStart [lit "-v", lit "x"]) (fun _ => some ⟨rowsOf exDump, fun _ _ => false⟩) v n w) := by
  obtain ⟨g, hg⟩ := gmtime_exists
  refine ⟨⟨List.replicate 32 0, g, exLocale [44], exWdns⟩, fun n w => ?_⟩
  exact C63_text_partial (sf := fun _ _ => false) (on := turnedOn (dumpWords (plainStart [lit "-v", lit "x"])))
    (f := lit "x") (sec := .version) ⟨rfl, by decide +kernel⟩ rfl (by decide +kernel) (by decide +kernel)
    (by decide +kernel) exDump_stored rfl (fun x hx _ => exDump_printable x hx) hg
    (exLocale_ok (by decide) (by decide) (by decide)) exLocale_strings exTexts_ok exTexts_lines n w

example : ∃ v : Printer, ∀ (n : Nat) (w : World),
    Dumped (fun ys s => JsonLines exTexts ⟨true, false, false⟩ ys s) (exDump.filter Sect.version.has) n
      (dumpProgram (plainStart [lit "-vj", lit "x"]) (fun _ => some ⟨rowsOf exDump, fun _ _ => false⟩) v n w) := by
  obtain ⟨g, hg⟩ := gmtime_exists
  refine ⟨⟨List.replicate 32 0, g, exLocale [44], exWdns⟩, fun n w => ?_⟩
  have hr : turnedOn (dumpWords (plainStart [lit "-vj", lit "x"])) .raw = false := by decide +kernel
  have := C63_json_partial (W := plainStart [lit "-vj", lit "x"]) (v := ⟨List.replicate 32 0, g, exLocale [44], exWdns⟩)
    (tables := fun _ => some ⟨rowsOf exDump, fun _ _ => false⟩) (T := exTexts)
    (sf := fun _ _ => false) (on := turnedOn (dumpWords (plainStart [lit "-vj", lit "x"]))) (f := lit "x")
    (sec := .version) ⟨rfl, by decide +kernel⟩ rfl (by decide +kernel) (by decide +kernel)
    (fun h => by rw [hr] at h; cases h) exDump_stored rfl (by
      rw [hr]
      intro x hx hs
      simp only [exDump, List.mem_cons, List.not_mem_nil, or_false] at hx
      rcases hx with rfl | rfl | rfl | rfl | rfl | rfl | rfl | rfl | rfl | rfl | rfl | rfl <;>
        first | (cases hs; done) | (unfold Presentable; decide +kernel)) (by simp) hg exTexts_ok n w
  rw [hr] at this
  exact this

end Verif.Props
