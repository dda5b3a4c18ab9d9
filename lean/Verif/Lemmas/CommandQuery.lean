import Verif.Lemmas.Command

/-! # The query of a command line -/

namespace Verif.Props
open Verif Verif.Spec

/-! ## Arguments -/

/-- The variables for a command. -/
def _root_.Verif.Spec.Command.vars : Command → CmdArgs
  | .rrset o none => { qType := .rrset, owner := some o }
  | .rrset o (some (t, b)) => { qType := .rrset, owner := some o, rrtype := some t, bailiwick := b }
  | .ip a => { qType := .rdataIp, rdata := some a }
  | .raw h t => { qType := .rdataRaw, rdata := some h, rrtype := t }
  | .name n t => { qType := .rdataName, rdata := some n, rrtype := t }
  | .version t => { qType := .version, version := t }
  | .timeRange => { qType := .timeRange }

/-- No slash in the owner name. -/
def NoSlash (cmd : Command) : Prop := ∀ o m, cmd = .rrset o m → 47 ∉ o

theorem vars_qType (cmd : Command) : cmd.vars.qType = cmd.kind := by
  cases cmd with
  | rrset o m => cases m <;> rfl
  | _ => rfl

theorem words_ne : lit "rrset" ≠ lit "rdata" ∧ lit "rrset" ≠ lit "version" ∧ lit "rrset" ≠ lit "time_range" ∧
    lit "rdata" ≠ lit "version" ∧ lit "rdata" ≠ lit "time_range" ∧ lit "version" ≠ lit "time_range" ∧
    lit "ip" ≠ lit "raw" ∧ lit "ip" ≠ lit "name" ∧ lit "raw" ≠ lit "name" := by decide +kernel

theorem readArgs_words {cmd : Command} (h : NoSlash cmd) : readArgs cmd.words = .ok cmd.vars := by
  obtain ⟨n1, n2, n3, n4, n5, n6, n7, n8, n9⟩ := words_ne
  cases cmd with
  | rrset o m =>
    have h47 := h o m rfl
    match m with
    | none => simp [readArgs, Command.words, Command.vars, h47]
    | some (t, none) => simp [readArgs, Command.words, Command.vars, h47]
    | some (t, some b) => simp [readArgs, Command.words, Command.vars, h47]
  | ip a => simp [readArgs, Command.words, Command.vars, n1.symm]
  | raw a t => cases t <;> simp [readArgs, Command.words, Command.vars, n1.symm, n7.symm]
  | name a t => cases t <;> simp [readArgs, Command.words, Command.vars, n1.symm, n8.symm, n9.symm]
  | version t => cases t <;> simp [readArgs, Command.words, Command.vars, n2.symm, n4.symm]
  | timeRange => simp [readArgs, Command.words, Command.vars, n3.symm, n5.symm, n6.symm]

theorem readArgs_inv (argv : List Bytes) :
    (∃ cmd : Command, argv = cmd.words ∧ NoSlash cmd ∧ readArgs argv = .ok cmd.vars) ∨ readArgs argv = .fail := by
  obtain ⟨n1, n2, n3, n4, n5, n6, n7, n8, n9⟩ := words_ne
  have fin : ∀ cmd : Command, NoSlash cmd → argv = cmd.words →
      (∃ cmd : Command, argv = cmd.words ∧ NoSlash cmd ∧ readArgs argv = .ok cmd.vars) ∨ readArgs argv = .fail := by
    rintro cmd h rfl
    exact .inl ⟨cmd, rfl, h, readArgs_words h⟩
  match argv, fin with
  | [], _ => exact .inr rfl
  | c :: r, fin =>
    by_cases c1 : c = lit "rrset"
    · subst c1
      match r, fin with
      | [], _ => exact .inr (by simp [readArgs])
      | o :: r, fin =>
        by_cases h47 : 47 ∈ o
        · right
          simp only [readArgs, List.getElem?_cons_succ, List.getElem?_cons_zero, Option.getD_some, if_pos h47]
          split
          · rfl
          · simp
        · match r, fin with
          | [], fin => exact fin (.rrset o none) (fun _ _ e => by cases e; exact h47) rfl
          | [t], fin => exact fin (.rrset o (some (t, none))) (fun _ _ e => by cases e; exact h47) rfl
          | [t, b], fin => exact fin (.rrset o (some (t, some b))) (fun _ _ e => by cases e; exact h47) rfl
          | t :: b :: x :: r, _ => exact .inr (by simp [readArgs])
    by_cases c2 : c = lit "rdata"
    · subst c2
      match r, fin with
      | [], _ => exact .inr (by simp [readArgs, n1.symm])
      | [x], _ => exact .inr (by simp [readArgs, n1.symm])
      | [x, a], fin =>
        by_cases d1 : x = lit "ip"
        · subst d1; exact fin (.ip a) (fun _ _ e => nomatch e) rfl
        by_cases d2 : x = lit "raw"
        · subst d2; exact fin (.raw a none) (fun _ _ e => nomatch e) rfl
        by_cases d3 : x = lit "name"
        · subst d3; exact fin (.name a none) (fun _ _ e => nomatch e) rfl
        exact .inr (by simp [readArgs, n1.symm, d1, d2, d3])
      | [x, a, t], fin =>
        by_cases d2 : x = lit "raw"
        · subst d2; exact fin (.raw a (some t)) (fun _ _ e => nomatch e) rfl
        by_cases d3 : x = lit "name"
        · subst d3; exact fin (.name a (some t)) (fun _ _ e => nomatch e) rfl
        exact .inr (by simp [readArgs, n1.symm, d2, d3])
      | x :: a :: t :: y :: r, _ => exact .inr (by simp [readArgs, n1.symm])
    by_cases c3 : c = lit "version"
    · subst c3
      match r, fin with
      | [], fin => exact fin (.version none) (fun _ _ e => nomatch e) rfl
      | [t], fin => exact fin (.version (some t)) (fun _ _ e => nomatch e) rfl
      | t :: x :: r, _ => exact .inr (by simp [readArgs, n2.symm, n4.symm])
    by_cases c4 : c = lit "time_range"
    · subst c4
      match r, fin with
      | [], fin => exact fin .timeRange (fun _ _ e => nomatch e) rfl
      | t :: r, _ => exact .inr (by simp [readArgs, n3.symm, n5.symm, n6.symm])
    exact .inr (by simp [readArgs, c1, c2, c3, c4])

/-! ## Setters -/

/-- What `C52` asks of the shifts, for a command. -/
def ShiftsFor (A : Arith) (L : Libs) (cmd : Command) : Prop :=
  ∀ s a n, cmd = .ip s → PrefixText L s a n → n ≤ 8 * a.length → ShiftsOk A a n

theorem must_spec {A : Arith} {L : Libs} (hL : LibsOk L) {q : Query} {t : Setter}
    (hA : ∀ s a n, q.qType = .rdataIp → t = .data (some s) → PrefixText L s a n → n ≤ 8 * a.length → ShiftsOk A a n) (q' : Query) :
    must (applySetter A L q t) = .ok q' ↔ Asks L q t q' := by
  obtain ⟨r, h1, h2⟩ := C52_asks_partial A L hL q t hA
  rw [← h2 q', h1]
  unfold must
  rw [Out.ok_bind]
  obtain ⟨x, b⟩ := r
  cases b <;> simp

theorem must_total {A : Arith} {L : Libs} (hL : LibsOk L) {q : Query} {t : Setter}
    (hA : ∀ s a n, q.qType = .rdataIp → t = .data (some s) → PrefixText L s a n → n ≤ 8 * a.length → ShiftsOk A a n) (f : Fault) :
    must (applySetter A L q t) ≠ .fault f := by
  obtain ⟨r, h1, -⟩ := C52_asks_partial A L hL q t hA
  rw [h1]
  unfold must
  rw [Out.ok_bind]
  split <;> simp

theorem bind_eq_ok {α β : Type} {x : Out α} {f : α → Out β} {b : β} : (x >>= f) = .ok b ↔ ∃ a, x = .ok a ∧ f a = .ok b := by
  cases x with
  | ok a => rw [Out.ok_bind]; exact ⟨fun h => ⟨a, rfl, h⟩, fun ⟨_, h, h'⟩ => by cases h; exact h'⟩
  | fail => exact ⟨fun h => (nomatch h), fun ⟨_, h, _⟩ => nomatch h⟩
  | fault f => exact ⟨fun h => (nomatch h), fun ⟨_, h, _⟩ => nomatch h⟩

theorem bind_total {α β : Type} {x : Out α} {f : α → Out β} (hx : ∀ e, x ≠ .fault e) (hf : ∀ a, x = .ok a → ∀ e, f a ≠ .fault e) :
    ∀ e, (x >>= f) ≠ .fault e := by
  cases x with
  | ok a => exact hf a rfl
  | fail => intro e h; nomatch h
  | fault g => exact absurd rfl (hx g)

theorem asksAll_nil {L : Libs} {q q' : Query} : AsksAll L q [] q' ↔ q' = q :=
  ⟨fun h => by cases h; rfl, fun h => by subst h; exact .nil⟩

theorem asksAll_cons {L : Libs} {q q' : Query} {s : Setter} {ss : List Setter} :
    AsksAll L q (s :: ss) q' ↔ ∃ q1, Asks L q s q1 ∧ AsksAll L q1 ss q' :=
  ⟨fun h => by cases h with | cons a b => exact ⟨_, a, b⟩, fun ⟨_, a, b⟩ => .cons a b⟩

/-- Setting the data, the type or the bailiwick leaves the rest. -/
theorem asks_frame {L : Libs} {q q' : Query} {t : Setter} (h : Asks L q t q')
    (ht : (∃ s, t = .data s) ∨ (∃ s, t = .rrtype s) ∨ ∃ s, t = .bailiwick s) :
    q'.qType = q.qType ∧ q'.bounds = q.bounds ∧ q'.offset = q.offset ∧ q'.lim = q.lim := by
  cases h <;> simp at ht <;> simp

theorem asksAll_frame {L : Libs} {q q' : Query} {cmd : Command} (h : AsksAll L q cmd.setters q') :
    q'.qType = q.qType ∧ q'.bounds = q.bounds ∧ q'.offset = q.offset ∧ q'.lim = q.lim := by
  have key : ∀ (ts : List Setter) (q : Query), (∀ t ∈ ts, (∃ s, t = .data s) ∨ (∃ s, t = .rrtype s) ∨ ∃ s, t = .bailiwick s) →
      AsksAll L q ts q' → q'.qType = q.qType ∧ q'.bounds = q.bounds ∧ q'.offset = q.offset ∧ q'.lim = q.lim := by
    intro ts
    induction ts with
    | nil => intro q _ h; rw [asksAll_nil.1 h]; simp
    | cons t ts ih =>
      intro q ht h
      obtain ⟨q1, h1, h2⟩ := asksAll_cons.1 h
      obtain ⟨a1, a2, a3, a4⟩ := asks_frame h1 (ht t (by simp))
      obtain ⟨b1, b2, b3, b4⟩ := ih q1 (fun t h => ht t (by simp [h])) h2
      exact ⟨b1.trans a1, b2.trans a2, b3.trans a3, b4.trans a4⟩
  refine key _ _ ?_ h
  cases cmd with
  | rrset o m => cases m <;> simp [Command.setters]
  | raw h t => cases t <;> simp [Command.setters]
  | name h t => cases t <;> simp [Command.setters]
  | _ => simp [Command.setters]

/-- The calls made for the arguments are those of the command. -/
theorem setArgs_iff {A : Arith} {L : Libs} (hL : LibsOk L) {cmd : Command} (hA : ShiftsFor A L cmd) {q q' : Query}
    (hq : q.qType = cmd.kind) : setArgs A L cmd.vars q = .ok q' ↔ AsksAll L q cmd.setters q' := by
  have hD : ∀ s, cmd.kind ≠ .rdataIp ∨ cmd = .ip s →
      ∀ s' a n, q.qType = .rdataIp → Setter.data (some s) = .data (some s') → PrefixText L s' a n → n ≤ 8 * a.length →
        ShiftsOk A a n := by
    rintro s (h | rfl) s' a n h1 h2
    · rw [hq] at h1; exact absurd h1 h
    · cases h2; exact hA s a n rfl
  have hN : ∀ (q : Query) (t : Setter), (∀ s, t ≠ .data (some s)) →
      ∀ s' a n, q.qType = .rdataIp → t = .data (some s') → PrefixText L s' a n → n ≤ 8 * a.length → ShiftsOk A a n :=
    fun q t h s' a n _ e => absurd e (h s')
  unfold setArgs
  rw [vars_qType]
  cases cmd with
  | rrset o m =>
    have hD' := hD o (.inl (by simp [Command.kind]))
    rw [if_pos (by simp [Command.kind])]
    have e : ∀ t b, (must (applySetter A L q (.data (some o))) >>= fun q => must (applySetter A L q (.rrtype t)) >>= fun q =>
        must (applySetter A L q (.bailiwick b))) = .ok q' ↔ AsksAll L q [.data (some o), .rrtype t, .bailiwick b] q' := by
      intro t b
      simp only [bind_eq_ok, asksAll_cons, asksAll_nil]
      constructor
      · rintro ⟨q1, h1, q2, h2, h3⟩
        exact ⟨q1, (must_spec hL hD' _).1 h1, q2, (must_spec hL (hN _ _ (by simp)) _).1 h2, q',
          (must_spec hL (hN _ _ (by simp)) _).1 h3, rfl⟩
      · rintro ⟨q1, h1, q2, h2, q3, h3, rfl⟩
        exact ⟨q1, (must_spec hL hD' _).2 h1, q2, (must_spec hL (hN _ _ (by simp)) _).2 h2,
          (must_spec hL (hN _ _ (by simp)) _).2 h3⟩
    cases m with
    | none => exact e none none
    | some m => exact e (some m.1) m.2
  | ip s =>
    rw [if_neg (by simp [Command.kind]), if_pos (by simp [Command.kind])]
    simp only [Command.vars, Command.setters, ne_eq, not_true_eq_false, if_false, bind_eq_ok, asksAll_cons, asksAll_nil]
    constructor
    · rintro ⟨q1, h1, h2⟩
      cases h2
      exact ⟨_, (must_spec hL (hD s (.inr rfl)) _).1 h1, rfl⟩
    · rintro ⟨q1, h1, rfl⟩
      exact ⟨_, (must_spec hL (hD s (.inr rfl)) _).2 h1, rfl⟩
  | raw s t =>
    have hD' := hD s (.inl (by simp [Command.kind]))
    rw [if_neg (by simp [Command.kind]), if_pos (by simp [Command.kind])]
    cases t with
    | none =>
      simp only [Command.vars, Command.setters, ne_eq, not_true_eq_false, if_false, bind_eq_ok, asksAll_cons, asksAll_nil]
      constructor
      · rintro ⟨q1, h1, h2⟩
        cases h2
        exact ⟨_, (must_spec hL hD' _).1 h1, rfl⟩
      · rintro ⟨q1, h1, rfl⟩
        exact ⟨_, (must_spec hL hD' _).2 h1, rfl⟩
    | some t =>
      simp only [Command.vars, Command.setters, ne_eq, reduceCtorEq, not_false_eq_true, if_true, bind_eq_ok, asksAll_cons,
        asksAll_nil]
      constructor
      · rintro ⟨q1, h1, h2⟩
        exact ⟨_, (must_spec hL hD' _).1 h1, q', (must_spec hL (hN _ _ (by simp)) _).1 h2, rfl⟩
      · rintro ⟨q1, h1, q2, h2, rfl⟩
        exact ⟨_, (must_spec hL hD' _).2 h1, (must_spec hL (hN _ _ (by simp)) _).2 h2⟩
  | name s t =>
    have hD' := hD s (.inl (by simp [Command.kind]))
    rw [if_neg (by simp [Command.kind]), if_pos (by simp [Command.kind])]
    cases t with
    | none =>
      simp only [Command.vars, Command.setters, ne_eq, not_true_eq_false, if_false, bind_eq_ok, asksAll_cons, asksAll_nil]
      constructor
      · rintro ⟨q1, h1, h2⟩
        cases h2
        exact ⟨_, (must_spec hL hD' _).1 h1, rfl⟩
      · rintro ⟨q1, h1, rfl⟩
        exact ⟨_, (must_spec hL hD' _).2 h1, rfl⟩
    | some t =>
      simp only [Command.vars, Command.setters, ne_eq, reduceCtorEq, not_false_eq_true, if_true, bind_eq_ok, asksAll_cons,
        asksAll_nil]
      constructor
      · rintro ⟨q1, h1, h2⟩
        exact ⟨_, (must_spec hL hD' _).1 h1, q', (must_spec hL (hN _ _ (by simp)) _).1 h2, rfl⟩
      · rintro ⟨q1, h1, q2, h2, rfl⟩
        exact ⟨_, (must_spec hL hD' _).2 h1, (must_spec hL (hN _ _ (by simp)) _).2 h2⟩
  | version t =>
    rw [if_neg (by simp [Command.kind]), if_neg (by simp [Command.kind]), if_pos (by simp [Command.kind])]
    simp only [Command.vars, Command.setters, asksAll_cons, asksAll_nil]
    have hV : ∀ s' a n, q.qType = .rdataIp → Setter.data t = .data (some s') → PrefixText L s' a n → n ≤ 8 * a.length →
        ShiftsOk A a n := by
      intro s' a n h1; rw [hq] at h1; cases h1
    constructor
    · intro h; exact ⟨_, (must_spec hL hV _).1 h, rfl⟩
    · rintro ⟨q1, h1, rfl⟩
      exact (must_spec hL hV _).2 h1
  | timeRange =>
    rw [if_neg (by simp [Command.kind]), if_neg (by simp [Command.kind]), if_neg (by simp [Command.kind])]
    simp only [Command.setters, asksAll_nil]
    exact ⟨fun h => by cases h; rfl, fun h => by rw [h]⟩

theorem applySetter_total {A : Arith} {L : Libs} (hL : LibsOk L) {cmd : Command} (hA : ShiftsFor A L cmd) {q : Query} {t : Setter}
    (hq : q.qType = cmd.kind) (ht : t ∈ cmd.setters) (f : Fault) : must (applySetter A L q t) ≠ .fault f := by
  refine must_total hL ?_ f
  rintro s a n h1 rfl
  rw [hq] at h1
  cases cmd with
  | ip s' =>
    simp only [Command.setters, List.mem_singleton, Setter.data.injEq, Option.some.injEq] at ht
    subst ht
    exact hA s a n rfl
  | _ => cases h1

theorem setArgs_total {A : Arith} {L : Libs} (hL : LibsOk L) {cmd : Command} (hA : ShiftsFor A L cmd) {q : Query}
    (hq : q.qType = cmd.kind) : ∀ f, setArgs A L cmd.vars q ≠ .fault f := by
  have other : ∀ (q : Query) (t : Setter), (∀ s, t ≠ .data (some s)) → ∀ f, must (applySetter A L q t) ≠ .fault f :=
    fun q t h => must_total hL fun s _ _ _ e => absurd e (h s)
  have data : ∀ s, Setter.data (some s) ∈ cmd.setters → ∀ f, must (applySetter A L q (.data (some s))) ≠ .fault f :=
    fun s h f => applySetter_total hL hA hq h f
  unfold setArgs
  rw [vars_qType]
  cases cmd with
  | rrset o m =>
    rw [if_pos (by simp [Command.kind])]
    cases m <;>
      exact bind_total (data o (by simp [Command.setters])) fun _ _ => bind_total (other _ _ (by simp)) fun _ _ => other _ _ (by simp)
  | ip s =>
    rw [if_neg (by simp [Command.kind]), if_pos (by simp [Command.kind])]
    exact bind_total (data s (by simp [Command.setters])) fun _ _ f h => by cases h
  | raw s t =>
    rw [if_neg (by simp [Command.kind]), if_pos (by simp [Command.kind])]
    cases t with
    | none => exact bind_total (data s (by simp [Command.setters])) fun _ _ f h => by cases h
    | some t => exact bind_total (data s (by simp [Command.setters])) fun _ _ => other _ _ (by simp)
  | name s t =>
    rw [if_neg (by simp [Command.kind]), if_pos (by simp [Command.kind])]
    cases t with
    | none => exact bind_total (data s (by simp [Command.setters])) fun _ _ f h => by cases h
    | some t => exact bind_total (data s (by simp [Command.setters])) fun _ _ => other _ _ (by simp)
  | version t =>
    rw [if_neg (by simp [Command.kind]), if_neg (by simp [Command.kind]), if_pos (by simp [Command.kind])]
    exact fun f => applySetter_total hL hA hq (t := .data t) (by simp [Command.setters]) f
  | timeRange =>
    rw [if_neg (by simp [Command.kind]), if_neg (by simp [Command.kind]), if_neg (by simp [Command.kind])]
    intro f h; cases h

/-! ## The rest of the query -/

theorem setTimes_eq {v : CmdVars} {q : Query} {cmd : Command} (hq : q.qType = cmd.kind) (hb : q.bounds = {}) :
    setTimes v q = { q with bounds := if cmd.records then cliBounds v.strict v.times else {} } := by
  have hrec : (q.qType ≠ .version && q.qType ≠ .timeRange) = cmd.records := by
    rw [hq]; cases cmd <;> rfl
  unfold setTimes
  rw [hrec]
  cases cmd.records with
  | false =>
    rw [if_neg (by simp), if_neg (by simp), ← hb]
  | true =>
    rw [if_pos rfl, if_pos rfl]
    unfold cliBounds
    simp only
    generalize (if v.strict = true then strictTimes v.times else v.times) = t
    obtain ⟨a, b, c, d⟩ := t
    unfold setTime setFilterParameter optTime
    simp only
    obtain ⟨q1, q2, q3, q4, q5, q6, q7, q8, q9, q10, q11, q12, q13, q14, q15, q16⟩ := q
    simp only at hb
    subst hb
    by_cases h1 : a = 0 <;> by_cases h2 : b = 0 <;> by_cases h3 : c = 0 <;> by_cases h4 : d = 0 <;> simp [h1, h2, h3, h4]

theorem must_case (A : Arith) (L : Libs) (q : Query) (b : Bool) :
    must (applySetter A L q (.caseSensitive b)) = .ok { q with caseSensitive := b } := rfl

theorem buildQuery_iff {A : Arith} {L : Libs} (hL : LibsOk L) {cmd : Command} (hA : ShiftsFor A L cmd) (v : CmdVars) (q : Query) :
    buildQuery A L v cmd.vars = .ok q ↔
      ∃ q', AsksAll L { qType := cmd.kind, caseSensitive := v.caseSensitive } cmd.setters q' ∧
        q = { q' with bounds := if cmd.records then cliBounds v.strict v.times else {}, offset := v.offset,
                      aggregated := v.aggregate } := by
  have hinit : queryInit cmd.vars.qType = .ok { qType := cmd.kind } := by
    rw [vars_qType]
    cases cmd <;> rfl
  have hfin : ∀ q', AsksAll L { qType := cmd.kind, caseSensitive := v.caseSensitive } cmd.setters q' →
      (setOffset A L v.offset (setTimes v q') >>= fun q =>
        must (applySetter A L q (.aggregated v.aggregate))) =
      .ok { q' with bounds := if cmd.records then cliBounds v.strict v.times else {}, offset := v.offset,
                    aggregated := v.aggregate } := by
    intro q' h
    obtain ⟨h1, h2, h3, -⟩ := asksAll_frame h
    simp only at h1 h2 h3
    rw [setTimes_eq h1 h2]
    unfold setOffset
    by_cases h0 : v.offset = 0
    · rw [if_neg (by simp [h0]), Out.ok_bind]
      simp only [applySetter, must, Out.ok_bind, if_true, h0, ← h3]
    · rw [if_pos h0]
      simp only [applySetter, must, Out.ok_bind, if_true]
  unfold buildQuery
  rw [hinit, Out.ok_bind]
  simp only [must_case, Out.ok_bind]
  rw [bind_eq_ok]
  constructor
  · rintro ⟨q', h1, h2⟩
    have h1 := (setArgs_iff hL hA (by rfl)).1 h1
    refine ⟨q', h1, ?_⟩
    rw [hfin q' h1] at h2
    cases h2; rfl
  · rintro ⟨q', h1, rfl⟩
    exact ⟨q', (setArgs_iff hL hA (by rfl)).2 h1, hfin q' h1⟩

theorem buildQuery_total {A : Arith} {L : Libs} (hL : LibsOk L) {cmd : Command} (hA : ShiftsFor A L cmd) (v : CmdVars) (f : Fault) :
    buildQuery A L v cmd.vars ≠ .fault f := by
  have hinit : queryInit cmd.vars.qType = .ok { qType := cmd.kind } := by
    rw [vars_qType]
    cases cmd <;> rfl
  unfold buildQuery
  rw [hinit, Out.ok_bind]
  simp only [must_case, Out.ok_bind]
  refine bind_total (setArgs_total hL hA (by rfl)) (fun q' _ => bind_total (fun f => ?_) fun _ _ f => ?_) f
  · unfold setOffset
    split <;> simp [must, applySetter]
  · simp [must, applySetter]

end Verif.Props
