import Verif.Lemmas.Program
import Verif.Props.Ranges
import Verif.Props.Rdata

/-!
# C58: what `dnstable_lookup` answers

From command line, environment and tables to the output, through all of the model.
-/

namespace Verif.Props

open Verif Verif.Spec

variable {A : Arith} {L : Libs} {T : TimeLibs} {D : Disk} {E : CmdEnv} {opts : List OptEvent} {v : Printer} {X : Texts}

/-- The program, with these options, answers the command with those of the records `Us` that have the property `P`, in
some `order`, except for the first ones if there is an offset; see `Reports` for the rest.  It ends if it is bound to. -/
def AnswersWith (A : Arith) (L : Libs) (T : TimeLibs) (D : Disk) (E : CmdEnv) (opts : List OptEvent) (v : Printer) (X : Texts)
    (cmd : Command) (order : List Rec → List Rec → Prop) (Us : List Rec) (P : Rec → Prop) : Prop :=
  ∀ w, ClockOk w → ∀ timeout offset, NumberGiven opts 116 timeout → NumberGiven opts 79 offset →
    ∃ ys xs, Selected P Us ys ∧ order xs ys ∧
      (∀ k, Reports timeout X (flagsOf opts) (xs.drop offset) w (lookupProgram A L T D E opts cmd.words v k w)) ∧
      ∀ interval, NumberGiven opts 105 interval → BoundToEnd timeout interval w →
        ∃ k, AtEnd (lookupProgram A L T D E opts cmd.words v k w)

/-- What is assumed of the libraries and the arguments of options. -/
structure Setting (L : Libs) (T : TimeLibs) (v : Printer) (X : Texts) (opts : List OptEvent) : Prop where
  libs : LibsOk L
  times : TimeLibsOk T
  printer : PrinterOk v X
  ordinary : ∀ e ∈ opts, OrdinaryOption T e

theorem bounded_rrsets (owner : Name → Bool) (ty : Option Nat) (bw : Option Name) (b : Bounds) :
    Bounded b (wantRrset owner ty bw b) := by
  intro x hx
  cases x <;> simp [wantRrset] at hx
  exact ⟨_, rfl, hx.2⟩

theorem bounded_rrs (want : RR → Bool) (ty : Option Nat) (b : Bounds) : Bounded b (wantRr want ty b) := by
  intro x hx
  cases x <;> simp [wantRr] at hx
  exact ⟨_, rfl, hx.2⟩

/-- From the query to the program. -/
theorem answers_from (hS : Setting L T v X opts) {cmd : Command} {s : Started}
    (hcmd : Commands L D.opens E opts cmd.words s)
    (hA : ∀ x a n, cmd = .ip x → PrefixText L x a n → n ≤ 8 * a.length → ShiftsOk A a n)
    {Us : List Rec} (hW : ∀ x ∈ Us, Writable (flagsOf opts) x) {order : List Rec → List Rec → Prop}
    {P : Rec → Prop} {want : Rec → Bool} (hP : ∀ x ∈ Us, want x = true ↔ P x)
    (hq : ∀ off, NumberGiven opts 79 off → ∃ q, s.query = cliQuery q (given opts 67) (!given opts 117) ∧ q.offset = off ∧
      q.lim = {} ∧ q.rrtype < 2 ^ 32 ∧
      ∀ w, ∃ xs, order xs (Us.filter want) ∧ (∀ x ∈ xs, x ∈ Us ∧ x.legal) ∧
        StoreDelivers D s.store (cliQuery q (given opts 67) (!given opts 117)) w xs) :
    AnswersWith A L T D E opts v X cmd order Us P := by
  intro w hw timeout offset h1 h2
  obtain ⟨q, e, e1, e2, e3, h⟩ := hq offset h2
  have hs : lookupStart A L T D.opens E opts cmd.words = .ok s :=
    (C57_starts_partial hS.libs hS.times D.opens E hS.ordinary (fun x a n e => hA x a n (words_inj e)) s).2 hcmd
  obtain ⟨cmd', -, -, -, -, -, -, h3, h3', h4⟩ := hcmd
  have ht := number_unique hS.ordinary (by decide) h1 h3
  obtain ⟨xs, x1, x2, x3⟩ := h (queryWorld s w)
  have hx : ∀ x ∈ xs, x.legal ∧ Writable s.flags x := fun x hx => ⟨(x2 x hx).2, by rw [h4]; exact hW x (x2 x hx).1⟩
  refine ⟨Us.filter want, xs, ⟨want, hP, rfl⟩, x1, fun k => ?_, fun interval h5 h6 => ?_⟩
  · have := program_reports hs (by rw [e]; exact e2) (by rw [e]; exact e3) hS.printer hw (xs := xs) (by rw [e]; exact x3) hx k
    rw [e, ← ht, h4] at this
    rw [← e1]
    exact this
  · rw [ht, number_unique hS.ordinary (by decide) h5 h3'] at h6
    exact program_ends hs (by rw [e]; exact e2) (by rw [e]; exact e3) hS.printer hw (xs := xs) (by rw [e]; exact x3) hx h6

/-- The same for queries that do not need the index. -/
theorem answers_with (hS : Setting L T v X opts) {cmd : Command} {s : Started}
    (hcmd : Commands L D.opens E opts cmd.words s)
    (hA : ∀ x a n, cmd = .ip x → PrefixText L x a n → n ≤ 8 * a.length → ShiftsOk A a n)
    {Us : List Rec} (hC : Contents D s.store (!given opts 117) Us) (hW : ∀ x ∈ Us, Writable (flagsOf opts) x)
    {P : Rec → Prop} {want : Rec → Bool} (hP : ∀ x ∈ Us, want x = true ↔ P x)
    (hq : ∀ off, NumberGiven opts 79 off → ∃ q, s.query = cliQuery q (given opts 67) (!given opts 117) ∧ q.offset = off ∧
      q.lim = {} ∧ q.rrtype < 2 ^ 32 ∧ Bounded q.bounds want ∧
      ∀ Vs S, Stored Vs → Vs ⊆ Us → Offers Vs q S → DeliversFrom S q (Vs.filter want)) :
    AnswersWith A L T D E opts v X cmd (Arranged (!given opts 117)) Us P := by
  refine answers_from hS hcmd hA hW hP fun off hoff => ?_
  obtain ⟨q, e, e1, e2, e3, hb, h⟩ := hq off hoff
  exact ⟨q, e, e1, e2, e3, fun w => store_delivers hC hb h _ w⟩

/-- The type and the times asked for. -/
theorem typed_iff {ty : Option Nat} {u : Nat} : ty.all (· == u) = true ↔ ∀ t, ty = some t → u = t := by
  cases ty with
  | none => simp
  | some t =>
    rw [Option.all_some, beq_iff_eq]
    exact ⟨fun h u e => by cases e; exact h.symm, fun h => (h t rfl).symm⟩

theorem typeText_lt (hL : LibsOk L) {mt : Option Bytes} {ty : Option Nat} (h : TypeText L mt ty) : ∀ t, ty = some t → t < 65536 := by
  intro t e
  cases h with
  | absent => cases e
  | any _ => cases e
  | type _ h _ => cases e; rw [← h]; exact hL.rrtype _

theorem bailiwickText_legal {mb : Option Bytes} {bw : Option Name} (h : BailiwickText L mb bw) : ∀ b, bw = some b → legalName b := by
  intro b e
  cases h with
  | absent => cases e
  | name hl _ => cases e; exact hl

theorem getD_lt {ty : Option Nat} (h : ∀ t, ty = some t → t < 65536) : ty.getD 0 < 2 ^ 32 := by
  cases ty with
  | none => decide
  | some t => have := h t rfl; simp only [Option.getD_some]; omega

/-- Times that are in order; asked of the records only if `-c` is given. -/
def TimesOrdered (opts : List OptEvent) (Us : List Rec) : Prop :=
  given opts 99 = true → ∀ x ∈ Us, ∀ o, obsOf x = some o → o.first ≤ o.last

theorem wantRrset_iff {wanted : Name → Bool} {ty : Option Nat} {bw : Option Name} {t : CliTimes} {Us : List Rec}
    (hleg : ∀ x ∈ Us, x.legal) (hU : TimesOrdered opts Us) {x : Rec} (hx : x ∈ Us) :
    wantRrset wanted ty bw (cliBounds (given opts 99) t) x = true ↔
      ∃ r o, x = .rrset r o ∧ wanted r.owner = true ∧ (∀ t, ty = some t → r.rrtype = t) ∧
        (∀ b, bw = some b → r.bailiwick = b) ∧ InTimes opts t o := by
  cases x with
  | rrset r o =>
    simp only [wantRrset, Bool.and_eq_true, typed_iff]
    rw [inTimes_iff (hleg _ hx).2 (fun h => hU h _ hx o rfl)]
    constructor
    · rintro ⟨⟨⟨h1, h2⟩, h3⟩, h4⟩
      refine ⟨r, o, rfl, h1, h2, fun b e => ?_, h4⟩
      subst e
      have h3' : (b == r.bailiwick) = true := h3
      exact (eq_of_beq h3').symm
    · rintro ⟨_, _, e, h1, h2, h3, h4⟩
      cases e
      refine ⟨⟨⟨h1, h2⟩, ?_⟩, h4⟩
      cases bw with
      | none => rfl
      | some b => simpa using (h3 b rfl).symm
  | _ =>
    simp only [wantRrset, Bool.false_eq_true, false_iff]
    rintro ⟨_, _, e, -⟩
    cases e

/-- C58, RRsets.  A command line `rrset OWNER [TYPE [BAILIWICK]]`, for an owner name without wildcard or one that begins
with it, makes the program write the RRsets of the table or set file with such an owner, that type, that bailiwick and
the times given with options.  (Partial: not for the type 255, and see `C57_starts_partial`.) -/
theorem C58_rrset_partial (hS : Setting L T v X opts) {owner : Bytes} {more : Option (Bytes × Option Bytes)} {s : Started}
    (hcmd : Commands L D.opens E opts (Command.rrset owner more).words s)
    {n : Name} (hn : legalName n) (hN : Named L (given opts 67) owner (wire n)) {wanted : Name → Bool} (hO : OwnersOf n wanted)
    {ty : Option Nat} (hty : TypeText L (more.map (·.1)) ty) (h255 : ty ≠ some 255)
    {bw : Option Name} (hbw : BailiwickText L (more.bind (·.2)) bw) {t : CliTimes} (ht : TimesGiven opts t)
    {Us : List Rec} (hC : Contents D s.store (!given opts 117) Us) (hW : ∀ x ∈ Us, Writable (flagsOf opts) x)
    (hU : TimesOrdered opts Us) :
    AnswersWith A L T D E opts v X (.rrset owner more) (Arranged (!given opts 117)) Us fun x =>
      ∃ r o, x = .rrset r o ∧ wanted r.owner = true ∧ (∀ t, ty = some t → r.rrtype = t) ∧
        (∀ b, bw = some b → r.bailiwick = b) ∧ InTimes opts t o := by
  have hlt := typeText_lt hS.libs hty
  have hleg : ∀ x ∈ Us, x.legal := contents_legal hC
  refine answers_with hS hcmd (fun _ _ _ e => by cases e) hC hW
    (want := wantRrset wanted ty bw (cliBounds (given opts 99) t)) ?_ ?_
  · exact fun x hx => wantRrset_iff hleg hU hx
  · intro off hoff
    obtain ⟨cmd', e, -, -, -, -, hm, -⟩ := hcmd
    obtain rfl := words_inj e
    refine ⟨_, meant_rrset hS.times hS.ordinary ht hoff hm hN hty hbw, rfl, rfl, getD_lt hlt, bounded_rrsets _ _ _ _,
      fun Vs S hV _ hO' => ?_⟩
    have ha : (askOf opts ty bw t off).legal :=
      ⟨fun t e => ⟨hlt t e, fun e' => h255 (by rw [← e']; exact e)⟩, bailiwickText_legal hbw⟩
    cases hO with
    | left hc => exact rrset_left_from hV hc hO' hn ha
    | exact hp => exact rrset_exact_from hV hO' hn hp ha

/-- C58, RRsets of owners `NAME.*` or `NAME.+`, if each table has the documented name index; in the order of the owners.
(Partial: as above, and no type set of the index may end right before the type asked for.) -/
theorem C58_rrset_right_partial (hS : Setting L T v X opts) {owner : Bytes} {more : Option (Bytes × Option Bytes)} {s : Started}
    (hcmd : Commands L D.opens E opts (Command.rrset owner more).words s)
    {c : UInt8} (hc : c = 42 ∨ c = 43) {front : Name} (hn : legalName (front ++ [[c]])) (hw : ¬ startsWild (front ++ [[c]]))
    (hN : Named L (given opts 67) owner (wire (front ++ [[c]])))
    {ty : Option Nat} (hty : TypeText L (more.map (·.1)) ty) (h255 : ty ≠ some 255)
    {bw : Option Name} (hbw : BailiwickText L (more.bind (·.2)) bw) {t : CliTimes} (ht : TimesGiven opts t)
    {Us : List Rec} (hC : ContentsOf D FwdIndexed s.store (!given opts 117) Us) (hW : ∀ x ∈ Us, Writable (flagsOf opts) x)
    (hU : TimesOrdered opts Us)
    (hR : ∀ u, ty = some u → IndexReaches D Rec.fwd (cliBounds (given opts 99) t) u (!given opts 117) s.store) :
    AnswersWith A L T D E opts v X (.rrset owner more) (ArrangedBy ownerText (!given opts 117)) Us fun x =>
      ∃ r o, x = .rrset r o ∧ rightWild c front r.owner = true ∧ (∀ t, ty = some t → r.rrtype = t) ∧
        (∀ b, bw = some b → r.bailiwick = b) ∧ InTimes opts t o := by
  have hlt := typeText_lt hS.libs hty
  have hleg : ∀ x ∈ Us, x.legal := contents_legal hC
  refine answers_from hS hcmd (fun _ _ _ e => by cases e) hW
    (want := wantRrset (rightWild c front) ty bw (cliBounds (given opts 99) t)) ?_ ?_
  · exact fun x hx => wantRrset_iff hleg hU hx
  · intro off hoff
    obtain ⟨cmd', e, -, -, -, -, hm, -⟩ := hcmd
    obtain rfl := words_inj e
    have ha : (askOf opts ty bw t off).legal :=
      ⟨fun t e => ⟨hlt t e, fun e' => h255 (by rw [← e']; exact e)⟩, bailiwickText_legal hbw⟩
    refine ⟨_, meant_rrset hS.times hS.ordinary ht hoff hm hN hty hbw, rfl, rfl, getD_lt hlt, fun w => ?_⟩
    refine store_delivers_by hC (fun f es ef hS hI => ?_) (fun path ws recs es eg hF hI => ?_)
      (fun path ws recs es eg eU hF hI => ?_) _
    · rw [es] at hR
      exact C20_right_wildcard_partial hS hI hc hn hw ha fun u n s e h => hR u e n s (hS.legal _ h) (by rw [ef]; exact List.mem_map.2 ⟨_, h, rfl⟩)
    · rw [es, eg] at hR
      exact rrset_right_at hF hI hc hn hw ha fun F hF u n s e hl h => hR u e w F hF n s hl h
    · subst eU
      rw [es, eg] at hR
      exact rrset_right_loose hF hI hc hn hw ha fun F hF u n s e hl h => hR u e w F hF n s hl h

theorem wantName_iff {target : RR → Option Name} {wanted : Name → Bool} {ty : Option Nat} {t : CliTimes} {Us : List Rec}
    (hleg : ∀ x ∈ Us, x.legal) (hU : TimesOrdered opts Us) {x : Rec} (hx : x ∈ Us) :
    wantRr (namesIn target wanted) ty (cliBounds (given opts 99) t) x = true ↔
      ∃ r o m, x = .rr r o ∧ r.rrtype ∈ nameTypes ∧ target r = some m ∧ wanted m = true ∧
        (∀ t, ty = some t → r.rrtype = t) ∧ InTimes opts t o := by
  cases x with
  | rr r o =>
    simp only [wantRr, Bool.and_eq_true, typed_iff, namesIn, List.contains_iff_mem]
    rw [inTimes_iff (hleg _ hx).2 (fun h => hU h _ hx o rfl)]
    constructor
    · rintro ⟨⟨⟨h1, h2⟩, h3⟩, h4⟩
      obtain ⟨m, h5, h6⟩ := (Option.any_eq_true _ _).1 h2
      exact ⟨r, o, m, rfl, h1, h5, h6, h3, h4⟩
    · rintro ⟨_, _, m, e, h1, h2, h3, h4, h5⟩
      cases e
      exact ⟨⟨⟨h1, by rw [h2]; simpa using h3⟩, h4⟩, h5⟩
  | _ =>
    simp only [wantRr, Bool.false_eq_true, false_iff]
    rintro ⟨_, _, _, e, -⟩
    cases e

/-- C58, names in record data: `rdata name NAME [TYPE]`, for a name without wildcard or one that ends with it.  (Partial:
hypotheses as for C21, and see `C57_starts_partial`.) -/
theorem C58_name_partial (hS : Setting L T v X opts) {name : Bytes} {mt : Option Bytes} {s : Started}
    (hcmd : Commands L D.opens E opts (Command.name name mt).words s)
    {n : Name} (hn : legalName n) (hN : Named L (given opts 67) name (wire n)) {wanted : Name → Bool} (hO : NamesOf n wanted)
    {ty : Option Nat} (hty : TypeText L mt ty) (hname : ∀ t, ty = some t → t ∈ nameTypes)
    {t : CliTimes} (ht : TimesGiven opts t)
    {Us : List Rec} (hC : Contents D s.store (!given opts 117) Us) (hW : ∀ x ∈ Us, Writable (flagsOf opts) x)
    (hU : TimesOrdered opts Us) {target : RR → Option Name} (hTg : Targets target Us)
    (hB : PlainName n → ∀ t, ty = some t → t ∈ bareNameTypes → Bare target t Us n)
    (hR : ∀ c front, n = front ++ [[c]] → (c = 42 ∨ c = 43) →
      ∀ r o, Rec.rr r o ∈ Us → r.rrtype ∈ nameTypes → target r = none → ¬ flat front <+: r.tail) :
    AnswersWith A L T D E opts v X (.name name mt) (Arranged (!given opts 117)) Us fun x =>
      ∃ r o m, x = .rr r o ∧ r.rrtype ∈ nameTypes ∧ target r = some m ∧ wanted m = true ∧
        (∀ t, ty = some t → r.rrtype = t) ∧ InTimes opts t o := by
  have hlt := typeText_lt hS.libs hty
  have hleg : ∀ x ∈ Us, x.legal := contents_legal hC
  refine answers_with hS hcmd (fun _ _ _ e => by cases e) hC hW
    (want := wantRr (namesIn target wanted) ty (cliBounds (given opts 99) t)) ?_ ?_
  · exact fun x hx => wantName_iff hleg hU hx
  · intro off hoff
    obtain ⟨cmd', e, -, -, -, -, hm, -⟩ := hcmd
    obtain rfl := words_inj e
    refine ⟨_, meant_name hS.times hS.ordinary ht hoff hm hN hty, rfl, rfl, getD_lt hlt, bounded_rrs _ _ _,
      fun Vs S hV hs hO' => ?_⟩
    have h255 : ∀ t ∈ nameTypes, t ≠ 255 := by decide
    have ha : (askOf opts ty none t off).legal :=
      ⟨fun t e => ⟨hlt t e, h255 t (hname t e)⟩, fun b e => by cases e⟩
    cases hO with
    | right hc =>
      exact rdata_right_from hV hc hO' hn hname (fun r o h => hTg r o (hs h)) fun r o h => hR _ _ rfl hc r o (hs h)
    | exact hp =>
      exact rdata_exact_from hV hO' hn hp ha hname (fun r o h => hTg r o (hs h)) fun t h1 h2 r o h => hB hp t h1 h2 r o (hs h)

/-- C58, names `*.NAME` or `+.NAME` in record data, if each table has an index of all names in record data; in the order of
these names from the last label.  (Partial: hypotheses as for C22, and see `C57_starts_partial`.) -/
theorem C58_name_left_partial (hS : Setting L T v X opts) {name : Bytes} {mt : Option Bytes} {s : Started}
    (hcmd : Commands L D.opens E opts (Command.name name mt).words s)
    {c : UInt8} (hc : c = 42 ∨ c = 43) {dom : Name} (hn : legalName ([c] :: dom)) (hw1 : ¬ endsWild ([c] :: dom))
    (hw2 : ¬ endsLikeWild ([c] :: dom)) (hN : Named L (given opts 67) name (wire ([c] :: dom)))
    {ty : Option Nat} (hty : TypeText L mt ty) (hname : ∀ t, ty = some t → t ∈ nameTypes)
    {t : CliTimes} (ht : TimesGiven opts t) {target : RR → Option Name} {Us : List Rec}
    (hC : ContentsOf D (fun Ts => RevIndexed target ty Ts ∧
        RevComplete target (fun t => nameTypes.contains t && ty.all (· == t)) Ts)
      s.store (!given opts 117) Us)
    (hW : ∀ x ∈ Us, Writable (flagsOf opts) x) (hU : TimesOrdered opts Us) (hTg : Targets target Us)
    (hB : ∀ t, ty = some t → t ∈ bareNameTypes → ∀ n, leftWild c dom n = true → Bare target t Us n)
    (hR : ∀ u, ty = some u → IndexReaches D Rec.rev (cliBounds (given opts 99) t) u (!given opts 117) s.store) :
    AnswersWith A L T D E opts v X (.name name mt) (ArrangedBy (targetText target) (!given opts 117)) Us fun x =>
      ∃ r o m, x = .rr r o ∧ r.rrtype ∈ nameTypes ∧ target r = some m ∧ leftWild c dom m = true ∧
        (∀ t, ty = some t → r.rrtype = t) ∧ InTimes opts t o := by
  have hlt := typeText_lt hS.libs hty
  have hleg : ∀ x ∈ Us, x.legal := contents_legal hC
  refine answers_from hS hcmd (fun _ _ _ e => by cases e) hW
    (want := wantRr (namesIn target (leftWild c dom)) ty (cliBounds (given opts 99) t)) ?_ ?_
  · exact fun x hx => wantName_iff hleg hU hx
  · intro off hoff
    obtain ⟨cmd', e, -, -, -, -, hm, -⟩ := hcmd
    obtain rfl := words_inj e
    have h255 : ∀ t ∈ nameTypes, t ≠ 255 := by decide
    have ha : (askOf opts ty none t off).legal :=
      ⟨fun t e => ⟨hlt t e, h255 t (hname t e)⟩, fun b e => by cases e⟩
    refine ⟨_, meant_name hS.times hS.ordinary ht hoff hm hN hty, rfl, rfl, getD_lt hlt, fun w => ?_⟩
    refine store_delivers_by hC (fun f es ef hS hI => ?_) (fun path ws recs es eg hF hI => ?_)
      (fun path ws recs es eg eU hF hI => ?_) _
    · rw [es] at hR
      exact C22_left_wildcard_partial hS hc hn hw1 hw2 ha hname hTg hI.1 hI.2
        (fun u n s e h => hR u e n s (hS.legal _ h) (by rw [ef]; exact List.mem_map.2 ⟨_, h, rfl⟩)) hB
    · rw [es, eg] at hR
      exact rdata_left_at hF hc hn hw1 hw2 ha hname hTg (fun f hf => (hI f hf).1) (fun f hf => (hI f hf).2)
        (fun F hF u n s e hl h => hR u e w F hF n s hl h) hB
    · subst eU
      rw [es, eg] at hR
      exact rdata_left_loose hF hc hn hw1 hw2 ha hname hTg (fun f hf => (hI f hf).1) (fun f hf => (hI f hf).2)
        (fun F hF u n s e hl h => hR u e w F hF n s hl h) hB

/-- C58, raw data: `rdata raw HEX [TYPE]`. -/
theorem C58_raw_partial (hS : Setting L T v X opts) {hex : Bytes} {mt : Option Bytes} {s : Started}
    (hcmd : Commands L D.opens E opts (Command.raw hex mt).words s) {d : Bytes} (hd : Hex hex d)
    {ty : Option Nat} (hty : TypeText L mt ty) {t : CliTimes} (ht : TimesGiven opts t)
    {Us : List Rec} (hC : Contents D s.store (!given opts 117) Us) (hW : ∀ x ∈ Us, Writable (flagsOf opts) x)
    (hU : TimesOrdered opts Us) :
    AnswersWith A L T D E opts v X (.raw hex mt) (Arranged (!given opts 117)) Us fun x =>
      ∃ r o, x = .rr r o ∧ d <+: r.tail ++ leb r.rrtype ++ wire r.owner.reverse ++ r.lead ++ word16 r.tail.length ∧
        (∀ t, ty = some t → r.rrtype = t) ∧ InTimes opts t o := by
  have hlt := typeText_lt hS.libs hty
  have hleg : ∀ x ∈ Us, x.legal := contents_legal hC
  refine answers_with hS hcmd (fun _ _ _ e => by cases e) hC hW
    (want := wantRr (fun r => d.isPrefixOf (r.tail ++ leb r.rrtype ++ wire r.owner.reverse ++ r.lead
        ++ word16 r.tail.length)) ty (cliBounds (given opts 99) t)) ?_ ?_
  · intro x hx
    cases x with
    | rr r o =>
      simp only [wantRr, Bool.and_eq_true, typed_iff, List.isPrefixOf_iff_prefix]
      rw [inTimes_iff (hleg _ hx).2 (fun h => hU h _ hx o rfl)]
      constructor
      · rintro ⟨⟨h1, h2⟩, h3⟩
        exact ⟨r, o, rfl, h1, h2, h3⟩
      · rintro ⟨_, _, e, h1, h2, h3⟩
        cases e
        exact ⟨⟨h1, h2⟩, h3⟩
    | _ =>
      simp only [wantRr, Bool.false_eq_true, false_iff]
      rintro ⟨_, _, e, -⟩
      cases e
  · intro off hoff
    obtain ⟨cmd', e, -, -, -, -, hm, -⟩ := hcmd
    obtain rfl := words_inj e
    exact ⟨_, meant_raw hS.times hS.ordinary ht hoff hm hd hty, rfl, rfl, getD_lt hlt, bounded_rrs _ _ _,
      fun Vs S hV _ hO' => rdata_raw_from hV d _ hO'⟩

/-- C58, addresses: `rdata ip ADDRESS`, a range or a prefix.  (Partial: no record has a key cut short, as for C23; prefixes
as in C52.) -/
theorem C58_ip_partial (hS : Setting L T v X opts) {text : Bytes} {s : Started}
    (hcmd : Commands L D.opens E opts (Command.ip text).words s)
    (hA : ∀ a n, PrefixText L text a n → n ≤ 8 * a.length → ShiftsOk A a n) {t : CliTimes} (ht : TimesGiven opts t)
    {Us : List Rec} (hC : Contents D s.store (!given opts 117) Us) (hW : ∀ x ∈ Us, Writable (flagsOf opts) x)
    (hU : TimesOrdered opts Us) (hR : ∀ len ty, AddrKind len ty → AddrRecords len ty Us)
    (hK : ∀ len ty, AddrKind len ty → ∀ r o, Rec.rr r o ∈ Us → r.rrtype ≠ ty → ¬ CutShort len ty r.key) :
    ∃ len P, AddressesOf L text len P ∧
      AnswersWith A L T D E opts v X (.ip text) (Arranged (!given opts 117)) Us fun x =>
        ∃ r o, x = .rr r o ∧ AddrKind len r.rrtype ∧ P r.tail ∧ InTimes opts t o := by
  have hleg : ∀ x ∈ Us, x.legal := contents_legal hC
  obtain ⟨cmd', e, -, -, -, -, hm, -⟩ := id hcmd
  obtain rfl := words_inj e
  obtain ⟨off0, hoff0⟩ : ∃ off, NumberGiven opts 79 off := by
    obtain ⟨_, _, off, _, _, _, _, _, h, _⟩ := hm
    exact ⟨off, h⟩
  obtain ⟨len, P, lo, hi, hP, hlo, hhi, hiff, hq⟩ := meant_ip hS.times hS.ordinary ht hoff0 hS.libs hm
  have hkind : AddrKind len (if len = 4 then 1 else 28) := addresses_kind hS.libs hP
  have hpos : 0 < len := by rcases hkind with ⟨h, -⟩ | ⟨h, -⟩ <;> omega
  refine ⟨len, P, hP, ?_⟩
  generalize hty : (if len = 4 then 1 else 28) = ty at hkind hq
  have huniq : ∀ u, AddrKind len u ↔ u = ty := by
    intro u
    constructor
    · intro h
      rcases h with ⟨h1, h2⟩ | ⟨h1, h2⟩ <;> rcases hkind with ⟨h3, h4⟩ | ⟨h3, h4⟩ <;> omega
    · rintro rfl; exact hkind
  refine answers_with hS hcmd (fun x a n e => by cases e; exact hA a n) hC hW
    (want := wantRr (fun r => if hi = [] then r.tail == lo else between lo hi r) (some ty) (cliBounds (given opts 99) t)) ?_ ?_
  · intro x hx
    cases x with
    | rr r o =>
      simp only [wantRr, Bool.and_eq_true, Option.all_some, beq_iff_eq]
      rw [inTimes_iff (hleg _ hx).2 (fun h => hU h _ hx o rfl)]
      have key : ty = r.rrtype → ((if hi = [] then r.tail == lo else between lo hi r) = true ↔ P r.tail) := by
        intro e
        rw [← hiff r.tail (hR len ty hkind r o hx e.symm).2]
        split
        · simp
        · simp [between]
      constructor
      · rintro ⟨⟨h1, h2⟩, h3⟩
        exact ⟨r, o, rfl, (huniq _).2 h2.symm, (key h2).1 h1, h3⟩
      · rintro ⟨_, _, e, h1, h2, h3⟩
        cases e
        have h4 := ((huniq _).1 h1).symm
        exact ⟨⟨(key h4).2 h2, h4⟩, h3⟩
    | _ =>
      simp only [wantRr, Bool.false_eq_true, false_iff]
      rintro ⟨_, _, e, -⟩
      cases e
  · intro off hoff
    obtain rfl := number_unique hS.ordinary (by decide) hoff hoff0
    have h32 : ty < 2 ^ 32 := by rcases hkind with ⟨-, h⟩ | ⟨-, h⟩ <;> omega
    refine ⟨_, hq, rfl, rfl, h32, bounded_rrs _ _ _, fun Vs S hV hs hO' => ?_⟩
    have hcut : ∀ a b, NoneCut len ty a b Vs := fun a b r o h h' _ _ => hK len ty hkind r o (hs h) h'
    have hrec : AddrRecords len ty Vs := fun r o h => hR len ty hkind r o (hs h)
    rcases hhi with rfl | hhi
    · exact rdata_address_from hV hkind hrec _ hO' hlo (hcut _ _)
    · have hne : hi ≠ [] := by rintro rfl; simp at hhi; omega
      have e : (fun r : RR => if hi = [] then r.tail == lo else between lo hi r) = between lo hi := by
        funext r; rw [if_neg hne]
      rw [e]
      exact rdata_range_from hV hkind hrec _ hO' hlo hhi (hcut _ _)

/-- C58, refusals: the program refuses exactly the command lines that are not proper. -/
theorem C58_refused_partial (hS : Setting L T v X opts) {argv : List Bytes}
    (hA : ∀ s a n, argv = [lit "rdata", lit "ip", s] → PrefixText L s a n → n ≤ 8 * a.length → ShiftsOk A a n)
    (h : ¬ ∃ s, Commands L D.opens E opts argv s) (k : Nat) (w : World) :
    lookupProgram A L T D E opts argv v k w = .refused := by
  have := (C57_refuses_partial hS.libs hS.times D.opens E hS.ordinary hA).2 h
  unfold lookupProgram
  rw [this]

/-! ## Cases -/

/-- A library knowing a few names. -/
def exNames : Libs :=
  { exLibs with strToName := fun s =>
      if s = lit "*.com" then some (wire ([42] :: exCom)) else if s = lit "a.com" then some (wire [[97], [99, 111, 109]])
      else if s = lit "www.*" then some (wire [[119, 119, 119], [42]]) else none }

theorem exNames_ok : LibsOk exNames where
  pton4 := exLibs_ok.pton4
  pton6 := exLibs_ok.pton6
  lower := exLibs_ok.lower
  rrtype := exLibs_ok.rrtype
  name s n h := by
    simp only [exNames] at h
    split at h
    · cases h; exact ⟨_, by decide +kernel, rfl⟩
    · split at h
      · cases h; exact ⟨_, by decide +kernel, rfl⟩
      · split at h
        · cases h; exact ⟨_, by decide +kernel, rfl⟩
        · cases h

/-- A printer with all that is assumed. -/
theorem exPrinter_ok : ∃ v, PrinterOk v exTexts := by
  obtain ⟨g, hg⟩ := gmtime_exists
  exact ⟨⟨List.replicate 32 0, g, exLocale [44], exWdns⟩, rfl, hg, exLocale_ok (by decide) (by decide) (by decide),
    exLocale_strings, exTexts_ok, exTexts_lines⟩

theorem exSetting {v : Printer} (hv : PrinterOk v exTexts) {opts : List OptEvent}
    (ho : ∀ e ∈ opts, OrdinaryOption exTime e) : Setting exNames exTime v exTexts opts := ⟨exNames_ok, exTime_ok, hv, ho⟩

/-- A disk with a table and a set of three tables. -/
def exDisk (Ts : List Rec) : Disk :=
  ⟨fun _ => some ⟨rowsOf Ts, fun _ _ => false⟩, fun _ => exSet, ⟨fun _ => 0, fun _ => 1, fun _ _ => false, fun _ _ => true, fun _ _ => false⟩⟩

theorem smallNumbers_short {s : Bytes} (h : s.length ≤ 9) : SmallNumbers s := by
  intro a ds b e hd
  have h1 := numval_lt hd
  have h2 : ds.length ≤ 9 := by rw [e] at h; simp at h; omega
  have h3 : (10 : Nat) ^ ds.length ≤ 10 ^ 9 := Nat.pow_le_pow_right (by decide) h2
  have h4 : (10 : Nat) ^ 9 < 2 ^ 31 := by decide
  omega

/-- `-c -a -17 -t 5` at time 20. -/
def exOptions : List OptEvent := [⟨99, [], 20⟩, ⟨97, lit "-17", 20⟩, ⟨116, lit "5", 20⟩]

theorem exOptions_ordinary : ∀ e ∈ exOptions, OrdinaryOption exTime e := by
  intro e he
  simp only [exOptions, List.mem_cons, List.not_mem_nil, or_false] at he
  rcases he with rfl | rfl | rfl
  · exact ⟨fun h => absurd h (by decide), fun h => absurd h (by decide)⟩
  · exact ⟨fun _ => ⟨by decide, .inr ⟨noDate_ago exTime_ok (ws := []) (ds := lit "17") (by simp) (by decide), by decide⟩⟩,
      fun h => absurd h (by decide)⟩
  · exact ⟨fun h => absurd h (by decide), fun _ => smallNumbers_short (by decide)⟩


theorem exOptions_times : TimesGiven exOptions ⟨3, 0, 0, 0⟩ where
  firstAfter := ⟨.ago (ws := []) (ds := lit "17") (by simp) (by decide) (by decide) (by decide) (by decide), by decide⟩
  lastAfter := rfl
  lastBefore := rfl
  firstBefore := rfl

theorem positive_digits {ds : Bytes} (h : ds ≠ []) (hd : ∀ c ∈ ds, IsDigit c) (h0 : 0 < numval ds) : Positive ds (numval ds) :=
  ⟨ds, [], by simp, ⟨[], [], ds, rfl, by simp, .inl rfl, h, hd, rfl⟩, h0, by intro c t e; cases e⟩

/-- `dnstable_lookup -c -a -17 -t 5 rrset '*.com'` at time 20, with a set file of three tables: it answers with the RRsets below
`com` that were first seen not before 3 in any of them. -/
example : ∃ v, PrinterOk v exTexts ∧
    AnswersWith strictArith exNames exTime (exDisk []) { setfile := some (lit "x.set") } exOptions v exTexts (.rrset (lit "*.com") none)
      (Arranged true) exUnion (fun x => ∃ r o, x = .rrset r o ∧ leftWild 42 exCom r.owner = true ∧
        (∀ t, (none : Option Nat) = some t → r.rrtype = t) ∧ (∀ b, (none : Option Name) = some b → r.bailiwick = b) ∧
        InTimes exOptions ⟨3, 0, 0, 0⟩ o) := by
  obtain ⟨v, hv⟩ := exPrinter_ok
  refine ⟨v, hv, ?_⟩
  have hN : Named exNames false (lit "*.com") (wire ([42] :: exCom)) := ⟨wire ([42] :: exCom), by decide +kernel, by decide +kernel⟩
  let s : Started :=
    { store := .setfile (lit "x.set")
      query := { qType := .rrset, name := wire ([42] :: exCom), bounds := cliBounds true ⟨3, 0, 0, 0⟩ }
      timeout := 5, interval := 0, flags := flagsOf exOptions }
  have hcmd : Commands exNames (exDisk []).opens { setfile := some (lit "x.set") } exOptions (Command.rrset (lit "*.com") none).words s := by
    refine ⟨_, rfl, fun o m e => (by cases e; decide), ?_, (by unfold Compatible; decide +kernel), .setfile rfl rfl, ?_, ?_, rfl, rfl⟩
    · intro e he
      simp only [exOptions, List.mem_cons, List.not_mem_nil, or_false] at he
      rcases he with rfl | rfl | rfl
      · exact .inr (.inr (by decide))
      · exact .inl ⟨by decide, 3, exOptions_times.firstAfter⟩
      · exact .inr (.inl ⟨by decide, _, positive_digits (by decide) (by decide) (by decide)⟩)
    · exact ⟨_, ⟨3, 0, 0, 0⟩, 0, .cons (.name (.inl rfl) hN) (.cons .noRrtype (.cons (.noBailiwick rfl) .nil)),
        exOptions_times.firstAfter, rfl, rfl, rfl, rfl, rfl⟩
    · exact positive_digits (ds := lit "5") (by decide) (by decide) (by decide)
  refine C58_rrset_partial (exSetting hv exOptions_ordinary) hcmd (by decide +kernel) hN (.left (.inl rfl)) .absent (by simp) .absent
    exOptions_times (.merged exSet_fileset fun _ _ => trivial) ?_ ?_
  · intro x hx
    simp only [exUnion, List.mem_cons, List.not_mem_nil, or_false] at hx
    rcases hx with rfl | rfl | rfl | rfl | rfl <;> first
      | (show _ ∧ _; decide +kernel)
      | (intro t e; cases e; exact ⟨2, by decide, by decide⟩)
  · intro _ x hx o ho
    simp only [exUnion, List.mem_cons, List.not_mem_nil, or_false] at hx
    rcases hx with rfl | rfl | rfl | rfl | rfl <;> cases ho <;> decide

/-- These are the records selected. -/
example : exUnion.filter (fun x => match x with
    | .rrset r o => leftWild 42 exCom r.owner && decide (3 ≤ o.first) | _ => false) = [.rrset exA ⟨5, 20, 3⟩] := by decide +kernel

/-- With `-n`, nothing is asked of the records. -/
def exCount : List OptEvent := [⟨110, [], 20⟩]

theorem exCount_ordinary : ∀ e ∈ exCount, OrdinaryOption exTime e := by
  intro e he
  simp only [exCount, List.mem_cons, List.not_mem_nil, or_false] at he
  subst he
  exact ⟨fun h => absurd h (by decide), fun h => absurd h (by decide)⟩

theorem exCount_proper : ∀ e ∈ exCount, ProperOption e := by
  intro e he
  simp only [exCount, List.mem_cons, List.not_mem_nil, or_false] at he
  subst he
  exact .inr (.inr (by decide))

theorem exCount_times : TimesGiven exCount ⟨0, 0, 0, 0⟩ := ⟨rfl, rfl, rfl, rfl⟩

/-- A command with `-n` on a single table. -/
theorem exCount_commands {Ts : List Rec} {cmd : Command} {q : Query} (h1 : ∀ o m, cmd = .rrset o m → 47 ∉ o)
    (h2 : AsksAll exNames { qType := cmd.kind } cmd.setters q) (h3 : cmd.records = true) :
    Commands exNames (exDisk Ts).opens { fname := some (lit "x.mtbl") } exCount cmd.words
      { store := .file ⟨rowsOf Ts, fun _ _ => false⟩, query := { q with bounds := {}, offset := 0, aggregated := true }, timeout := 0,
        interval := 0, flags := flagsOf exCount } := by
  refine ⟨cmd, rfl, h1, exCount_proper, ?_, .file rfl rfl rfl rfl, ⟨q, ⟨0, 0, 0, 0⟩, 0, h2, rfl, rfl, rfl, rfl, rfl, ?_⟩, rfl, rfl, rfl⟩
  · exact ⟨fun h => (by rw [h3] at h; cases h), by decide⟩
  · rw [if_pos h3]; rfl

/-- `dnstable_lookup -n rrset 'www.*' A`. -/
example : ∃ v, PrinterOk v exTexts ∧
    AnswersWith strictArith exNames exTime (exDisk exIndexed) { fname := some (lit "x.mtbl") } exCount v exTexts
      (.rrset (lit "www.*") (some (lit "A", none))) (ArrangedBy ownerText true) exIndexed
      (fun x => ∃ r o, x = .rrset r o ∧ rightWild 42 [[119, 119, 119]] r.owner = true ∧
        (∀ t, (some 1 : Option Nat) = some t → r.rrtype = t) ∧
        (∀ b, (none : Option Name) = some b → r.bailiwick = b) ∧ InTimes exCount ⟨0, 0, 0, 0⟩ o) := by
  obtain ⟨v, hv⟩ := exPrinter_ok
  have hN : Named exNames false (lit "www.*") (wire [[119, 119, 119], [42]]) := ⟨wire [[119, 119, 119], [42]], by decide +kernel, by decide +kernel⟩
  have hA : ¬ AnyType (lit "A") := by unfold AnyType; rw [← sameNoCase_iff, ← sameNoCase_iff, ← sameNoCase_iff]; decide +kernel
  refine ⟨v, hv, C58_rrset_right_partial (front := [[119, 119, 119]]) (exSetting hv exCount_ordinary)
    (exCount_commands (Ts := exIndexed) (fun o m e => by cases e; decide)
      (.cons (.name (.inl rfl) hN) (.cons (.rrtype hA (t := 1) rfl (by decide)) (.cons (.noBailiwick rfl) .nil))) rfl)
    (.inl rfl) (by decide +kernel) ?_ hN (.type hA rfl (by decide)) (by decide) .absent exCount_times
    (.file rfl exIndexed_stored exIndexed_fwd) (fun _ _ => trivial) (fun h => by cases h) ?_⟩
  · rintro ⟨d, m, h, -⟩
    simp at h
  · intro u hu n s hl _ he
    rw [← Option.some.inj hu] at he
    cases s with
    | bitmap bl =>
      obtain ⟨bl', b, rfl, -, h3⟩ := he
      have := ((hl.2 _ rfl).2.2 b (by simp)).1
      omega
    | _ => exact he

/-- `dnstable_lookup -n rdata name a.com`. -/
example : ∃ v, PrinterOk v exTexts ∧
    AnswersWith strictArith exNames exTime (exDisk exRdata) { fname := some (lit "x.mtbl") } exCount v exTexts
      (.name (lit "a.com") none) (Arranged true) exRdata (fun x => ∃ r o m, x = .rr r o ∧ r.rrtype ∈ nameTypes ∧ exTarget r = some m ∧
        (m == [[97], [99, 111, 109]]) = true ∧ (∀ t, (none : Option Nat) = some t → r.rrtype = t) ∧ InTimes exCount ⟨0, 0, 0, 0⟩ o) := by
  obtain ⟨v, hv⟩ := exPrinter_ok
  have hN : Named exNames false (lit "a.com") (wire [[97], [99, 111, 109]]) := ⟨wire [[97], [99, 111, 109]], by decide +kernel, by decide +kernel⟩
  exact ⟨v, hv, C58_name_partial (exSetting hv exCount_ordinary) (exCount_commands (Ts := exRdata) (fun o m e => by cases e)
    (.cons (.name (.inr rfl) hN) .nil) rfl) (by decide +kernel) hN (.exact plain_a) .absent (fun _ e => by cases e) exCount_times
    (.file rfl exRdata_stored trivial) (fun _ _ => trivial) (fun h => by cases h) exRdata_targets (fun _ _ e => by cases e)
    (fun c front e _ r o _ _ h => by unfold exTarget at h; split at h <;> cases h)⟩

/-- `dnstable_lookup -n rdata name '*.com'`. -/
example : ∃ v, PrinterOk v exTexts ∧
    AnswersWith strictArith exNames exTime (exDisk exRdata) { fname := some (lit "x.mtbl") } exCount v exTexts
      (.name (lit "*.com") none) (ArrangedBy (targetText exTarget) true) exRdata (fun x => ∃ r o m, x = .rr r o ∧ r.rrtype ∈ nameTypes ∧ exTarget r = some m ∧
        leftWild 42 exCom m = true ∧
        (∀ t, (none : Option Nat) = some t → r.rrtype = t) ∧ InTimes exCount ⟨0, 0, 0, 0⟩ o) := by
  obtain ⟨v, hv⟩ := exPrinter_ok
  have hN : Named exNames false (lit "*.com") (wire ([42] :: exCom)) := ⟨wire ([42] :: exCom), by decide +kernel, by decide +kernel⟩
  refine ⟨v, hv, C58_name_left_partial (exSetting hv exCount_ordinary) (exCount_commands (Ts := exRdata) (fun o m e => by cases e)
    (.cons (.name (.inr rfl) hN) .nil) rfl) (.inl rfl) (by decide +kernel) ?_ ?_ hN .absent (fun _ e => by cases e) exCount_times
    (.file rfl exRdata_stored ⟨⟨fun _ _ _ _ _ h => (by cases h), by decide +kernel⟩, ?_⟩) (fun _ _ => trivial) (fun h => by cases h) exRdata_targets
    (fun _ e => by cases e) (fun _ e => by cases e)⟩
  · rintro ⟨c, m, h, -⟩
    have := congrArg List.getLast? h
    simp [exCom] at this
  · rintro ⟨p, c, m, h, hc⟩
    have := congrArg List.getLast? h
    simp only [exCom, List.getLast?_append, List.getLast?_singleton, Option.some_or] at this
    have := congrArg List.getLast? (Option.some.inj this)
    simp at this
    rcases hc with rfl | rfl <;> simp at this
  · intro r o n hr ht htn
    simp only [exRdata, List.mem_cons, List.not_mem_nil, or_false, Rec.rr.injEq, reduceCtorEq] at hr
    rcases hr with ⟨rfl, -⟩ | ⟨rfl, -⟩ | ⟨rfl, -⟩ | ⟨rfl, -⟩
    · rw [(Option.some.inj htn).symm]; decide +kernel
    · rw [(Option.some.inj htn).symm]; decide +kernel
    · exact absurd ht (by decide)
    · rw [(Option.some.inj htn).symm]; decide +kernel

/-- `dnstable_lookup -n rdata raw 0161`. -/
example : ∃ v, PrinterOk v exTexts ∧
    AnswersWith strictArith exNames exTime (exDisk exRdata) { fname := some (lit "x.mtbl") } exCount v exTexts
      (.raw (lit "0161") none) (Arranged true) exRdata (fun x => ∃ r o, x = .rr r o ∧
        [1, 97] <+: r.tail ++ leb r.rrtype ++ wire r.owner.reverse ++ r.lead ++ word16 r.tail.length ∧
        (∀ t, (none : Option Nat) = some t → r.rrtype = t) ∧ InTimes exCount ⟨0, 0, 0, 0⟩ o) := by
  obtain ⟨v, hv⟩ := exPrinter_ok
  have hx : Hex (lit "0161") [1, 97] := .cons (by decide) (by decide) (.cons (by decide) (by decide) .nil)
  exact ⟨v, hv, C58_raw_partial (exSetting hv exCount_ordinary) (exCount_commands (Ts := exRdata) (fun o m e => by cases e)
    (.cons (.raw rfl (by decide) hx) .nil) rfl) hx .absent exCount_times (.file rfl exRdata_stored trivial) (fun _ _ => trivial)
    (fun h => by cases h)⟩

/-- `dnstable_lookup -n rdata ip 10.1.2.3`. -/
example : ∃ v, PrinterOk v exTexts ∧ ∃ len P, AddressesOf exNames (lit "10.1.2.3") len P ∧
    AnswersWith strictArith exNames exTime (exDisk exAddrs) { fname := some (lit "x.mtbl") } exCount v exTexts
      (.ip (lit "10.1.2.3")) (Arranged true) exAddrs (fun x => ∃ r o, x = .rr r o ∧ AddrKind len r.rrtype ∧ P r.tail ∧
        InTimes exCount ⟨0, 0, 0, 0⟩ o) := by
  obtain ⟨v, hv⟩ := exPrinter_ok
  have ha : AddressText exNames (lit "10.1.2.3") [10, 1, 2, 3] := .inl (by decide +kernel)
  refine ⟨v, hv, C58_ip_partial (exSetting hv exCount_ordinary) (exCount_commands (Ts := exAddrs) (fun o m e => by cases e)
    (.cons (.address rfl (by decide) (by decide) ha) .nil) rfl) (fun a n h => absurd h.2.1 (by decide)) exCount_times
    (.file rfl exAddrs_stored trivial) (fun _ _ => trivial) (fun h => by cases h) ?_ ?_⟩
  · rintro len ty (⟨rfl, rfl⟩ | ⟨rfl, rfl⟩)
    · exact exAddrs_records
    · intro r o hx ht
      simp only [exAddrs, List.mem_cons, List.not_mem_nil, or_false, Rec.rr.injEq] at hx
      rcases hx with ⟨rfl, rfl⟩ | ⟨rfl, rfl⟩ | ⟨rfl, rfl⟩ | ⟨rfl, rfl⟩ | ⟨rfl, rfl⟩ <;> cases ht
  · rintro len ty (⟨rfl, rfl⟩ | ⟨rfl, rfl⟩)
    · exact exAddrs_uncut
    · intro r o hx ht
      simp only [exAddrs, List.mem_cons, List.not_mem_nil, or_false, Rec.rr.injEq] at hx
      rcases hx with ⟨rfl, rfl⟩ | ⟨rfl, rfl⟩ | ⟨rfl, rfl⟩ | ⟨rfl, rfl⟩ | ⟨rfl, rfl⟩ <;>
        (rw [RR.key, ← C23_overread_iff (.inr ⟨rfl, rfl⟩)]; decide +kernel)

/-- `dnstable_lookup -n rdata ip 10.1.2.4`, which the library does not know to be an address. -/
example : ∃ v, PrinterOk v exTexts ∧ ∀ k w,
    lookupProgram strictArith exNames exTime (exDisk exAddrs) { fname := some (lit "x.mtbl") } exCount
      [lit "rdata", lit "ip", lit "10.1.2.4"] v k w = .refused := by
  obtain ⟨v, hv⟩ := exPrinter_ok
  have hs : ∀ s a n, [lit "rdata", lit "ip", lit "10.1.2.4"] = [lit "rdata", lit "ip", s] → PrefixText exNames s a n →
      n ≤ 8 * a.length → ShiftsOk strictArith a n := by
    intro s a n e h
    cases e
    exact absurd h.2.1 (by decide)
  refine ⟨v, hv, C58_refused_partial (exSetting hv exCount_ordinary) hs ?_⟩
  rw [← C57_refuses_partial exNames_ok exTime_ok _ _ exCount_ordinary hs]
  rfl

end Verif.Props
