import Verif.Lemmas.CommandQuery

/-! # C57: the command line of `dnstable_lookup` -/

namespace Verif.Props
open Verif Verif.Spec

theorem timeVal_unique {T : TimeLibs} (hT : TimeLibsOk T) {opts : List OptEvent} (ho : ∀ e ∈ opts, OrdinaryOption T e) {c : UInt8}
    (hc : c ∈ lit "aAbB") : ∀ e ∈ opts, e.ch = c → ∀ a b, TimeVal e a → TimeVal e b → a = b := by
  intro e he h a b ha hb
  have o := (ho e he).1 (by rw [h]; exact hc)
  have e1 := (o.iff hT a).2 ha
  have e2 := (o.iff hT b).2 hb
  rw [e1] at e2
  cases e2; rfl

theorem numVal_unique {T : TimeLibs} {opts : List OptEvent} (ho : ∀ e ∈ opts, OrdinaryOption T e) {c : UInt8}
    (hc : c ∈ lit "itO") : ∀ e ∈ opts, e.ch = c → ∀ a b, NumVal e a → NumVal e b → a = b := by
  intro e he h a b ha hb
  have o := (ho e he).2 (by rw [h]; exact hc)
  have e1 := (positive_iff o a).2 ha
  have e2 := (positive_iff o b).2 hb
  rw [e1] at e2
  cases e2; rfl

theorem timeGiven_iff {opts : List OptEvent} {c : UInt8} {x : Nat} : TimeGiven opts c x ↔ Val TimeVal 0 opts c x := by
  unfold TimeGiven Val TimeVal
  cases lastOf opts c <;> exact Iff.rfl

theorem numberGiven_iff {opts : List OptEvent} {c : UInt8} {x : Nat} : NumberGiven opts c x ↔ Val NumVal 0 opts c x := by
  unfold NumberGiven Val NumVal
  cases lastOf opts c <;> exact Iff.rfl

theorem lastOf_none {opts : List OptEvent} {c : UInt8} : lastOf opts c = none ↔ given opts c = false := by
  unfold lastOf given
  rw [List.find?_eq_none, List.any_eq_false]
  simp

theorem offset_given {opts : List OptEvent} {x : Nat} (h : Val NumVal 0 opts 79 x) : x ≠ 0 ↔ given opts 79 = true := by
  unfold Val at h
  cases hl : lastOf opts 79 with
  | none =>
    rw [hl] at h
    simp only at h
    rw [lastOf_none.1 hl, h]
    simp
  | some e =>
    rw [hl] at h
    obtain ⟨-, -, -, -, h0, -⟩ := h
    have : given opts 79 ≠ false := fun h => by rw [lastOf_none.2 h] at hl; cases hl
    simp only [ne_eq, Bool.not_eq_false] at this
    simp only [this, iff_true]
    omega

/-- The options make sense exactly if they are compatible. -/
theorem sensible_iff {opts : List OptEvent} {v : CmdVars} (h : After {} opts v) (cmd : Command) :
    sensible cmd.vars.qType v = true ↔ Compatible cmd opts := by
  have h1 := offset_given h.offset
  have h2 : v.flags.addRaw = given opts 82 := by rw [h.addRaw]; rfl
  have h3 : v.flags.count = given opts 110 := by rw [h.count]; rfl
  have h4 : v.flags.json = given opts 106 := by rw [h.json]; rfl
  have h5 : v.flags.jsonRfc = given opts 74 := by rw [h.jsonRfc]; rfl
  have hrec : (cmd.vars.qType = .version || cmd.vars.qType = .timeRange) = !cmd.records := by
    rw [vars_qType]
    cases cmd <;> rfl
  have h1' : decide (v.offset ≠ 0) = given opts 79 := by
    by_cases h0 : v.offset = 0
    · have : given opts 79 = false := by
        cases e : given opts 79 with
        | false => rfl
        | true => exact absurd h0 (h1.2 e)
      rw [this]; simp [h0]
    · rw [h1.1 h0]; simp [h0]
  unfold sensible Compatible
  rw [hrec, h1', h2, h3, h4, h5]
  generalize cmd.records = r
  generalize given opts 79 = a
  generalize given opts 82 = b
  generalize given opts 110 = c
  generalize given opts 106 = d
  generalize given opts 74 = e
  cases r <;> cases a <;> cases b <;> cases c <;> cases d <;> cases e <;> simp

theorem flags_eq {opts : List OptEvent} {v : CmdVars} (h : After {} opts v) : v.flags = flagsOf opts := by
  have h2 := h.addRaw
  have h3 := h.count
  have h4 := h.json
  have h5 := h.jsonRfc
  have h6 := h.stats
  unfold flagsOf
  obtain ⟨_, _, _, _, _, _, _, ⟨a, b, c, d, e⟩⟩ := v
  simp only [Bool.false_or, Nat.zero_add] at h2 h3 h4 h5 h6
  subst h2 h3 h4 h5 h6
  rfl

theorem openStore_iff {opens : Bytes → Option Src} {E : CmdEnv} {agg : Bool} {s : Store} :
    openStore opens E agg = .ok s ↔ Stores opens E (!agg) s := by
  obtain ⟨fname, setfile⟩ := E
  unfold openStore
  constructor
  · intro h
    match fname, setfile, h with
    | none, some path, h => cases h; exact .setfile rfl rfl
    | some path, none, h =>
      simp only at h
      split at h
      · cases h
      · next ha =>
        cases ho : opens path with
        | none => rw [ho] at h; cases h
        | some f =>
          rw [ho] at h
          cases h
          exact .file rfl rfl (by cases agg <;> simp at ha ⊢) ho
  · intro h
    cases h with
    | file h1 h2 h3 h4 =>
      simp only at h1 h2
      subst h1 h2
      have : agg = true := by cases agg <;> simp at h3 ⊢
      subst this
      simp [h4]
    | setfile h1 h2 =>
      simp only at h1 h2
      subst h1 h2
      rfl

theorem openStore_total {opens : Bytes → Option Src} {E : CmdEnv} {agg : Bool} (f : Fault) : openStore opens E agg ≠ .fault f := by
  obtain ⟨fname, setfile⟩ := E
  unfold openStore
  split
  · simp
  · simp
  · simp
  · split
    · simp
    · split <;> simp

variable {A : Arith} {L : Libs} {T : TimeLibs} {opts : List OptEvent} {argv : List Bytes}

/-- C57 (partial: the arguments of options are of the kind C53 is about and numbers in the range of an `int`; prefixes
as in C52).  A command line makes the program look up what it says, or, if it says nothing proper, exit with a message. -/
theorem C57_starts_partial (hL : LibsOk L) (hT : TimeLibsOk T) (opens : Bytes → Option Src) (E : CmdEnv)
    (ho : ∀ e ∈ opts, OrdinaryOption T e)
    (hA : ∀ s a n, argv = [lit "rdata", lit "ip", s] → PrefixText L s a n → n ≤ 8 * a.length → ShiftsOk A a n) (s : Started) :
    lookupStart A L T opens E opts argv = .ok s ↔ Commands L opens E opts argv s := by
  unfold lookupStart
  rw [bind_eq_ok]
  constructor
  · rintro ⟨v, hv, h⟩
    rcases readOptions_spec hT ho {} with ⟨v', h1, hp, ha⟩ | ⟨h1, -⟩
    · rw [h1] at hv
      cases hv
      obtain ⟨a, har, h⟩ := bind_eq_ok.1 h
      rcases readArgs_inv argv with ⟨cmd, hw, hs, hr⟩ | hr
      · rw [hr] at har
        cases har
        have hA' : ShiftsFor A L cmd := fun s a n e => hA s a n (by rw [hw, e]; rfl)
        split at h
        · next hse =>
          obtain ⟨st, hst, h⟩ := bind_eq_ok.1 h
          obtain ⟨q, hq, h⟩ := bind_eq_ok.1 h
          cases h
          obtain ⟨q', hq1, hq2⟩ := (buildQuery_iff hL hA' v q).1 hq
          have h117 : v.aggregate = !given opts 117 := by rw [ha.aggregate]; rfl
          have h67 : v.caseSensitive = given opts 67 := by rw [ha.caseSensitive]; rfl
          have h99 : v.strict = given opts 99 := by rw [ha.strict]; rfl
          refine ⟨cmd, hw, hs, hp, (sensible_iff ha cmd).1 hse, ?_, ⟨q', v.times, v.offset, ?_, timeGiven_iff.2 ha.firstAfter,
            timeGiven_iff.2 ha.lastAfter, timeGiven_iff.2 ha.lastBefore, timeGiven_iff.2 ha.firstBefore,
            numberGiven_iff.2 ha.offset, ?_⟩, numberGiven_iff.2 ha.timeout, numberGiven_iff.2 ha.interval, flags_eq ha⟩
          · have := openStore_iff.1 hst
            rwa [h117, Bool.not_not] at this
          · rw [← h67]; exact hq1
          · rw [← h99, ← h117]; exact hq2
        · cases h
      · rw [hr] at har; cases har
    · rw [h1] at hv; cases hv
  · rintro ⟨cmd, hw, hs, hp, hc, hst, ⟨q', t, offset, hq, t1, t2, t3, t4, hoff, hqe⟩, hto, hint, hfl⟩
    have hA' : ShiftsFor A L cmd := fun s a n e => hA s a n (by rw [hw, e]; rfl)
    rcases readOptions_spec hT ho {} with ⟨v, h1, -, ha⟩ | ⟨-, h1⟩
    · refine ⟨v, h1, ?_⟩
      have h117 : v.aggregate = !given opts 117 := by rw [ha.aggregate]; rfl
      have h67 : v.caseSensitive = given opts 67 := by rw [ha.caseSensitive]; rfl
      have h99 : v.strict = given opts 99 := by rw [ha.strict]; rfl
      have e1 := Val.unique (timeVal_unique hT ho (by decide)) (timeGiven_iff.1 t1) ha.firstAfter
      have e2 := Val.unique (timeVal_unique hT ho (by decide)) (timeGiven_iff.1 t2) ha.lastAfter
      have e3 := Val.unique (timeVal_unique hT ho (by decide)) (timeGiven_iff.1 t3) ha.lastBefore
      have e4 := Val.unique (timeVal_unique hT ho (by decide)) (timeGiven_iff.1 t4) ha.firstBefore
      have e5 := Val.unique (numVal_unique ho (by decide)) (numberGiven_iff.1 hoff) ha.offset
      have e6 := Val.unique (numVal_unique ho (by decide)) (numberGiven_iff.1 hto) ha.timeout
      have e7 := Val.unique (numVal_unique ho (by decide)) (numberGiven_iff.1 hint) ha.interval
      have et : t = v.times := by
        obtain ⟨a, b, c, d⟩ := t
        simp only at e1 e2 e3 e4
        rw [e1, e2, e3, e4]
      have hbq : buildQuery A L v cmd.vars = .ok s.query :=
        (buildQuery_iff hL hA' v s.query).2 ⟨q', by rw [h67]; exact hq, by rw [h99, h117, ← et, ← e5]; exact hqe⟩
      have hos : openStore opens E v.aggregate = .ok s.store := openStore_iff.2 (by rw [h117, Bool.not_not]; exact hst)
      rw [hw, readArgs_words hs, Out.ok_bind, if_pos ((sensible_iff ha cmd).2 hc), hos, Out.ok_bind, hbq, Out.ok_bind,
        ← e6, ← e7, flags_eq ha, ← hfl]
    · exact absurd hp h1

/-- C57: what is not a proper command line is refused, and no command line makes the program misbehave. -/
theorem C57_refuses_partial (hL : LibsOk L) (hT : TimeLibsOk T) (opens : Bytes → Option Src) (E : CmdEnv)
    (ho : ∀ e ∈ opts, OrdinaryOption T e)
    (hA : ∀ s a n, argv = [lit "rdata", lit "ip", s] → PrefixText L s a n → n ≤ 8 * a.length → ShiftsOk A a n) :
    lookupStart A L T opens E opts argv = .fail ↔ ¬ ∃ s, Commands L opens E opts argv s := by
  have hok := C57_starts_partial hL hT opens E ho hA
  have hfault : ∀ f, lookupStart A L T opens E opts argv ≠ .fault f := by
    unfold lookupStart
    refine bind_total ?_ fun v _ => bind_total ?_ ?_
    · rcases readOptions_spec hT ho {} with ⟨v, h, -⟩ | ⟨h, -⟩ <;> rw [h] <;> simp
    · rcases readArgs_inv argv with ⟨cmd, -, -, h⟩ | h <;> rw [h] <;> simp
    · intro a har
      rcases readArgs_inv argv with ⟨cmd, hw, -, h⟩ | h
      · rw [h] at har
        cases har
        have hA' : ShiftsFor A L cmd := fun s a n e => hA s a n (by rw [hw, e]; rfl)
        split
        · exact bind_total openStore_total fun st _ => bind_total (buildQuery_total hL hA' v) fun q _ f => by simp
        · simp
      · rw [h] at har; cases har
  cases h : lookupStart A L T opens E opts argv with
  | fault f => exact absurd h (hfault f)
  | ok s =>
    simp only [reduceCtorEq, false_iff]
    exact fun h' => h' ⟨s, (hok s).1 h⟩
  | fail =>
    simp only [true_iff]
    rintro ⟨s, hs⟩
    rw [(hok s).2 hs] at h
    cases h

/-! ## Cases -/

/-- What can be compared of the outcome. -/
def startedQuery (o : Out Started) : Option (Query × Nat × Nat × CliFlags) :=
  match o with
  | .ok s => some (s.query, s.timeout, s.interval, s.flags)
  | _ => none

/-- Some command lines: the last `-a` counts, and only the number at the start of an argument. -/
example :
    startedQuery (lookupStart strictArith exLibs exTime (fun _ => some ⟨[], fun _ _ => false⟩) { fname := some (lit "x.mtbl") }
      [⟨97, lit "2020-01-01", 1600000000⟩, ⟨97, lit "-300", 1600000000⟩, ⟨106, [], 0⟩, ⟨79, lit " +3x", 0⟩, ⟨116, lit "10", 0⟩]
      [lit "rrset", lit "B.", lit "MX", lit "a."]) =
      some ({ qType := .rrset, name := [1, 98, 0], doRrtype := true, rrtype := 15, bailiwick := some [1, 97, 0],
              bounds := { firstAfter := some 1599999700 }, offset := 3 }, 10, 0, { json := true }) ∧
    startedQuery (lookupStart strictArith exLibs exTime (fun _ => none) { setfile := some (lit "x.set") } [⟨117, [], 0⟩]
      [lit "rdata", lit "ip", lit "10.1.2.3/20"]) =
      some ({ qType := .rdataIp, doRrtype := true, rrtype := 1, ip1 := [10, 1, 0, 0], ip2 := [10, 1, 15, 255],
              aggregated := false }, 0, 0, {}) ∧
    startedQuery (lookupStart strictArith exLibs exTime (fun _ => some ⟨[], fun _ _ => false⟩) { fname := some (lit "x.mtbl") } [⟨117, [], 0⟩]
      [lit "rdata", lit "ip", lit "10.1.2.3/20"]) = none ∧
    startedQuery (lookupStart strictArith exLibs exTime (fun _ => some ⟨[], fun _ _ => false⟩) { fname := some (lit "x.mtbl") } []
      [lit "rdata", lit "ip", lit "10.1.2.3", lit "A"]) = none := by
  decide +kernel

/-- The first of these lines meets the hypotheses of the theorems. -/
example : LibsOk exLibs ∧ TimeLibsOk exTime ∧
    ∀ e ∈ ([⟨97, lit "2020-01-01", 1600000000⟩, ⟨97, lit "-300", 1600000000⟩, ⟨106, [], 0⟩] : List OptEvent),
      OrdinaryOption exTime e := by
  refine ⟨exLibs_ok, exTime_ok, ?_⟩
  intro e he
  simp only [List.mem_cons, List.not_mem_nil, or_false] at he
  rcases he with rfl | rfl | rfl
  · exact ⟨fun _ => ⟨by decide, .inl ⟨⟨2020, 1, 1, 0, 0, 0⟩, ⟨0, by decide +kernel, by simp⟩, by decide, by decide⟩⟩,
      fun h => absurd h (by decide)⟩
  · exact ⟨fun _ => ⟨by decide, .inr ⟨noDate_ago exTime_ok (ws := []) (ds := lit "300") (by simp) (by decide), by decide⟩⟩,
      fun h => absurd h (by decide)⟩
  · exact ⟨fun h => absurd h (by decide), fun h => absurd h (by decide)⟩

/-- A number beyond the range of an `int` is not refused but taken for another one. -/
theorem C57_number_counterexample : Positive (lit "4294967297") 4294967297 ∧
    positiveArg (lit "4294967297") = .ok 1 ∧ positiveArg (lit "-4294967291") = .ok 5 := by
  refine ⟨⟨lit "4294967297", [], by simp, ⟨[], [], lit "4294967297", rfl, by simp, .inl rfl, by decide, by decide, by decide⟩,
    by decide, by intro c t h; cases h⟩, by decide +kernel, by decide +kernel⟩

/-- The synopsis of the manual page has `-O` with `version` and `time_range`; the program always refuses it. -/
theorem C57_synopsis_counterexample (A : Arith) (L : Libs) (T : TimeLibs) (opens : Bytes → Option Src) (E : CmdEnv) :
    lookupStart A L T opens E [⟨79, lit "5", 0⟩] [lit "time_range"] = .fail ∧
    lookupStart A L T opens E [⟨79, lit "5", 0⟩] [lit "version"] = .fail := by
  have h1 : readOptions T {} [⟨79, lit "5", 0⟩] = .ok { offset := 5 } := by
    have e : positiveArg (lit "5") = .ok 5 := by decide +kernel
    simp [readOptions, readOption, e]
  have h2 : readArgs [lit "time_range"] = .ok { qType := .timeRange } := by decide +kernel
  have h3 : readArgs [lit "version"] = .ok { qType := .version } := by decide +kernel
  unfold lookupStart
  rw [h1, Out.ok_bind, h2, h3]
  exact ⟨rfl, rfl⟩

end Verif.Props
