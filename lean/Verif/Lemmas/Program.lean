import Verif.Spec.Program
import Verif.Props.LookupRun
import Verif.Props.Unaggregated
import Verif.Props.Command

/-! # The program `dnstable_lookup` -/

namespace Verif
open Spec Props

theorem queryNext_case (q : Query) (b : Bool) (B : Built) (s : QSt B) (w : World) :
    queryNext { q with caseSensitive := b } B s w = queryNext q B s w := by
  have e : ∀ (tb : UInt8) kv, indirectKey { q with caseSensitive := b } tb kv = indirectKey q tb kv := fun _ _ => rfl
  have l : ∀ (tb : UInt8) (I M : Mach) n i m w, indirectLoop { q with caseSensitive := b } tb I M n i m w =
      indirectLoop q tb I M n i m w := by
    intro tb I M n
    induction n with
    | zero => intros; rfl
    | succ n ih => intro i m w; cases m <;> simp only [indirectLoop, ih, e]
  cases s with
  | direct s => rfl
  | indirect tb i m => simp only [queryNext, l]

theorem queryRun_case (q : Query) (b : Bool) (B : Built) (ls : List Limits) (s : QSt B) (w : World) :
    queryRun { q with caseSensitive := b } B ls s w = queryRun q B ls s w := by
  induction ls generalizing s w with
  | nil => rfl
  | cons l ls ih =>
    have e := queryNext_case { q with lim := l } b B s w
    simp only [queryRun, ih]
    rw [e]

/-- Whether case matters plays no part once the query is made. -/
theorem delivers_case {S : Sources} {q : Query} {E : List Rec} (b : Bool) (h : DeliversFrom S q E) :
    DeliversFrom S { q with caseSensitive := b } E := by
  obtain ⟨p, hp, h⟩ := h
  refine ⟨p, hp, fun ls w hw hl => ?_⟩
  have := h ls w hw hl
  simp only at this ⊢
  rw [← queryRun_case q b] at this
  exact this

theorem initKind_lim (q : Query) (l : Limits) : initKind { q with lim := l } = initKind q := rfl

/-- The query on the store delivers `xs`. -/
def StoreDelivers (D : Disk) (st : Store) (q : Query) (w : World) (xs : List Rec) : Prop :=
  ∃ O, openedStore D q w st = .ok O ∧
    (∃ T Ti sf sfi rm fill, Sorted T ∧ Sorted Ti ∧ O.sources D q = ⟨curM T sf, curM Ti sfi, rm, fill⟩) ∧
    DeliversFrom (O.sources D q) q xs

theorem openedStore_lim (D : Disk) (q : Query) (l : Limits) (w : World) (st : Store) :
    openedStore D { q with lim := l } w st = openedStore D q w st := by
  cases st <;> rfl

theorem sources_lim (D : Disk) (q : Query) (l : Limits) (O : OpenedStore) : O.sources D { q with lim := l } = O.sources D q := by
  rcases O with f | O
  · rfl
  · cases O <;> rfl

theorem limitQuery_query (timeout interval : Nat) (q : Query) (w : World) :
    (limitQuery timeout interval q w).2.1 = { q with lim := (limitQuery timeout interval q w).2.1.lim } := by
  unfold limitQuery startTimeout startInterval
  by_cases h1 : timeout = 0 <;> by_cases h2 : interval = 0 <;> simp [h1, h2, setDeadlineParam] <;> split <;> rfl

/-- What is assumed of the functions used for output, and that `X` are the texts of the DNS library. -/
structure PrinterOk (v : Printer) (X : Texts) : Prop where
  numbuf : v.numbuf.length = 32
  gmtime : GmtimeOk v.gmtime
  locale : LocaleOk v.locale
  strings : LocaleStrings v.locale
  texts : TextsOk v.wdns X
  lines : LineTexts X

theorem closing_ok {v : Printer} {X : Texts} (hv : PrinterOk v X) (F : CliFlags) (r : QRes) (k : Nat) :
    Closing F (decide (r = .timeout)) (k % 2 ^ 64) (farewell F v r (k % 2 ^ 64)) := by
  unfold Closing farewell
  have hk := (hv.locale.grouped (k % 2 ^ 64) (Nat.mod_lt _ (by decide))).1
  cases h1 : F.json <;> cases h2 : F.jsonRfc <;> simp
  exact hk

/-- Whatever the kind of output, a run shows the records delivered. -/
theorem answered_output {q : Query} (hr : q.rrtype < 2 ^ 32) (hq : q.lim = {}) {Tb Ti : Table} (hT : Sorted Tb)
    (hTi : Sorted Ti) (sf sfi : View → Bytes → Bool) (rm : Option (List Src)) (fill : Option Src) {xs : List Rec}
    (hE : DeliversFrom ⟨curM Tb sf, curM Ti sfi, rm, fill⟩ q xs) {v : Printer} {X : Texts} (hv : PrinterOk v X) {F : CliFlags}
    (hxs : ∀ x ∈ xs, x.legal ∧ Writable F x)
    (timeout interval : Nat) {w : World} (ho : w.offset = q.offset) (hc : ClockOk w) :
    ∃ p, initKind q = .ok p ∧ ∀ n,
      Answered timeout (Output X F) (xs.drop q.offset) w
        (lookupRun F v timeout interval q ⟨curM Tb sf, curM Ti sfi, rm, fill⟩ p n w) := by
  cases h1 : F.count with
  | true =>
    obtain ⟨p, hp, h⟩ := C54_prints hr hq hT hTi sf sfi rm fill hE (F := F) (v := v) (text := fun _ => [])
      (fun x _ => C54_count h1 v _) timeout interval ho hc
    refine ⟨p, hp, fun n => (h n).mono fun ys s _ h => ?_⟩
    unfold Output
    rw [if_pos h1, h]
    simp
  | false =>
    cases h2 : F.json || F.jsonRfc with
    | true =>
      have hx : ∀ x ∈ xs, x.legal ∧ Presentable ⟨F.json, false, F.addRaw⟩ x := fun x hx => by
        have := hxs x hx
        unfold Writable at this
        rwa [if_neg (by simp [h1]), if_pos h2] at this
      obtain ⟨p, hp, h⟩ := C54_json_partial hr hq hT hTi sf sfi rm fill hE hx hv.numbuf hv.gmtime hv.texts
        ⟨by simpa using h2, h1⟩ timeout interval ho hc
      refine ⟨p, hp, fun n => (h n).mono fun ys s _ h => ?_⟩
      unfold Output
      rwa [if_neg (by simp [h1]), if_pos h2]
    | false =>
      have hx : ∀ x ∈ xs, x.legal ∧ Printable x := fun x hx => by
        have := hxs x hx
        unfold Writable at this
        rwa [if_neg (by simp [h1]), if_neg (by simp [h2])] at this
      obtain ⟨p, hp, h⟩ := C54_text_partial hr hq hT hTi sf sfi rm fill hE hx hv.gmtime hv.locale hv.strings hv.texts hv.lines
        (F := F) (by simpa [h1] using h2) timeout interval ho hc
      refine ⟨p, hp, fun n => (h n).mono fun ys s _ h => ?_⟩
      unfold Output
      rwa [if_neg (by simp [h1]), if_neg (by simp [h2])]

/-- What can be seen of a run that shows the records. -/
theorem reports_progress {timeout : Nat} {v : Printer} {X : Texts} (hv : PrinterOk v X) {F : CliFlags} {xs : List Rec} {w : World}
    {B : Built} {d : Dump B} (h : Answered timeout (Output X F) xs w d) : Reports timeout X F xs w (progress F v d) := by
  cases d with
  | fault f => exact h
  | running d => exact h
  | ended r d =>
    rcases h with ⟨rfl, h1, h2⟩ | ⟨rfl, h1, h2, k, h3, h4, h5⟩
    · refine ⟨h1, ?_⟩
      have := closing_ok hv F .failure xs.length
      rwa [← h2] at this ⊢
    · refine ⟨h1, h2, k, h3, h4, ?_⟩
      have := closing_ok hv F .timeout k
      rwa [← h5] at this ⊢

/-- The world in which the query is made. -/
def queryWorld (s : Started) (w : World) : World :=
  (limitQuery s.timeout s.interval s.query { w with offset := s.query.offset }).2.2

theorem program_run {A : Arith} {L : Libs} {T : TimeLibs} {D : Disk} {E : CmdEnv} {opts : List OptEvent}
    {argv : List Bytes} {s : Started} (hs : lookupStart A L T D.opens E opts argv = .ok s) {v : Printer} {w : World}
    {O : OpenedStore} (h1 : openedStore D s.query (queryWorld s w) s.store = .ok O) {S : Sources}
    (h2 : O.sources D s.query = S) {p : Plan} (hp : initKind s.query = .ok p) (n : Nat) :
    lookupProgram A L T D E opts argv v n w = progress s.flags v (lookupRun s.flags v s.timeout s.interval s.query S p n
      { w with offset := s.query.offset }) := by
  unfold lookupProgram
  rw [hs]
  simp only
  unfold queryWorld at h1
  have e := limitQuery_query s.timeout s.interval s.query { w with offset := s.query.offset }
  have e1 : ∀ w' st, openedStore D (limitQuery s.timeout s.interval s.query { w with offset := s.query.offset }).2.1 w' st =
      openedStore D s.query w' st := fun w' st => by rw [e, openedStore_lim]
  have e2 : initKind (limitQuery s.timeout s.interval s.query { w with offset := s.query.offset }).2.1 = .ok p := by
    rw [e, initKind_lim, hp]
  have e3 : O.sources D (limitQuery s.timeout s.interval s.query { w with offset := s.query.offset }).2.1 = S := by
    rw [e, sources_lim, h2]
  rw [e1, h1, e2]
  simp only
  rw [e3]

theorem program_reports {A : Arith} {L : Libs} {T : TimeLibs} {D : Disk} {E : CmdEnv} {opts : List OptEvent}
    {argv : List Bytes} {s : Started} (hs : lookupStart A L T D.opens E opts argv = .ok s) (hq : s.query.lim = {})
    (hr : s.query.rrtype < 2 ^ 32) {v : Printer} {X : Texts} (hv : PrinterOk v X) {w : World} (hc : ClockOk w) {xs : List Rec}
    (hE : StoreDelivers D s.store s.query (queryWorld s w) xs) (hxs : ∀ x ∈ xs, x.legal ∧ Writable s.flags x) (n : Nat) :
    Reports s.timeout X s.flags (xs.drop s.query.offset) w (lookupProgram A L T D E opts argv v n w) := by
  obtain ⟨O, h1, ⟨Tb, Ti, sf, sfi, rm, fill, hT, hTi, h2⟩, h3⟩ := hE
  rw [h2] at h3
  obtain ⟨p, hp, h⟩ := answered_output hr hq hT hTi sf sfi rm fill h3 hv hxs s.timeout s.interval
    (w := { w with offset := s.query.offset }) rfl hc
  have := reports_progress hv (h n)
  rw [program_run hs h1 h2 hp]
  exact this

/-- Writable records are written. -/
theorem writable_text {v : Printer} {X : Texts} (hv : PrinterOk v X) {F : CliFlags} {x : Rec} (hx : x.legal) (hw : Writable F x) :
    printEntry F v x.entry = .ok (textOf F v x.entry) := by
  cases h1 : F.count with
  | true => exact textOf_ok (C54_count h1 v _)
  | false =>
    unfold Writable at hw
    rw [if_neg (by simp [h1])] at hw
    cases h2 : F.json || F.jsonRfc with
    | true =>
      rw [if_pos h2] at hw
      obtain ⟨_, h, -⟩ := printed_json hv.numbuf hv.gmtime hv.texts ⟨by simpa using h2, h1⟩ hx hw
      exact textOf_ok h
    | false =>
      rw [if_neg (by simp [h2])] at hw
      obtain ⟨_, h, -⟩ := printed_lines hv.gmtime hv.locale hv.strings hv.texts hv.lines (F := F) (by simpa [h1] using h2) hx hw
      exact textOf_ok h

theorem program_ends {A : Arith} {L : Libs} {T : TimeLibs} {D : Disk} {E : CmdEnv} {opts : List OptEvent}
    {argv : List Bytes} {s : Started} (hs : lookupStart A L T D.opens E opts argv = .ok s) (hq : s.query.lim = {})
    (hr : s.query.rrtype < 2 ^ 32) {v : Printer} {X : Texts} (hv : PrinterOk v X) {w : World} (hc : ClockOk w) {xs : List Rec}
    (hE : StoreDelivers D s.store s.query (queryWorld s w) xs) (hxs : ∀ x ∈ xs, x.legal ∧ Writable s.flags x)
    (hend : BoundToEnd s.timeout s.interval w) : ∃ n, AtEnd (lookupProgram A L T D E opts argv v n w) := by
  obtain ⟨O, h1, ⟨Tb, Ti, sf, sfi, rm, fill, hT, hTi, h2⟩, h3⟩ := hE
  rw [h2] at h3
  obtain ⟨p, hp, n, r, d, h⟩ := C54_ends hr hq hT hTi sf sfi rm fill h3 (F := s.flags) (v := v) (text := textOf s.flags v)
    (fun x hx => writable_text hv (hxs x hx).1 (hxs x hx).2) (timeout := s.timeout) (interval := s.interval)
    (w := { w with offset := s.query.offset }) rfl hc hend
  refine ⟨n, ?_⟩
  rw [program_run hs h1 h2 hp, h]
  trivial

/-! ## What the stores deliver -/

/-- The query as the program makes it. -/
abbrev cliQuery (q : Query) (cs agg : Bool) : Query := { q with caseSensitive := cs, aggregated := agg }

theorem file_delivers {D : Disk} {f : Src} {q : Query} {Ts xs : List Rec} (hf : f.rows = rowsOf Ts) (hS : Stored Ts)
    (h : DeliversFrom (plainSources (curM (rowsOf Ts) f.seekFails)) q xs) (cs agg : Bool) (w : World) :
    StoreDelivers D (.file f) (cliQuery q cs agg) w xs := by
  have e : f.mach = curM (rowsOf Ts) f.seekFails := by rw [← hf]
  refine ⟨.file f, rfl, ⟨rowsOf Ts, rowsOf Ts, f.seekFails, f.seekFails, none, none, hS.sorted, hS.sorted, ?_⟩, ?_⟩
  · show plainSources f.mach = _
    rw [e]; rfl
  · show DeliversFrom (plainSources f.mach) _ _
    rw [e]
    exact delivers_aggregated agg (delivers_case cs h)

theorem merged_delivers {D : Disk} {path : Bytes} {ws : List Nat} {recs : Src → List Rec} {q : Query} {xs : List Rec} {w : World}
    (hU : ∀ f ∈ D.members path, FileOf ws f (recs f)) (hws : ws.length ≤ 30) {F : Fenced}
    (hF : fencedFiles q.bounds D.env w (D.members path) = .ok F)
    (h : DeliversFrom (filesetSources q.bounds D.env F) q xs) (cs : Bool) :
    StoreDelivers D (.setfile path) (cliQuery q cs true) w xs := by
  obtain ⟨F', K, L, Xs, h1, -, h2, h3, -⟩ := fenced_total hws hU q.bounds D.env w
  rw [hF] at h1
  cases h1
  refine ⟨.fileset (.merged F), ?_, ⟨F.kept, F.kept, D.env.seekKept, D.env.seekIndex, _, _, ?_, ?_, rfl⟩,
    delivers_aggregated true (delivers_case cs h)⟩
  · simp only [openedStore, openFileset, if_true, hF, Out.ok_bind]
  · rw [h2]; exact h3.sorted
  · rw [h2]; exact h3.sorted

theorem loose_delivers {D : Disk} {path : Bytes} {q : Query} {xs : List Rec} {w : World} {Xs Vs : List Rec}
    (hF : looseFiles q.bounds D.env w w (D.members path) = .ok ⟨rowsOf Xs, rowsOf Vs⟩) (hX : Stored Xs) (hV : Stored Vs)
    (h : DeliversFrom (looseSources D.env ⟨rowsOf Xs, rowsOf Vs⟩) q xs) (cs : Bool) :
    StoreDelivers D (.setfile path) (cliQuery q cs false) w xs := by
  refine ⟨.fileset (.loose ⟨rowsOf Xs, rowsOf Vs⟩), ?_, ⟨rowsOf Vs, rowsOf Xs, D.env.seekKept, D.env.seekIndex, none, none, hV.sorted,
    hX.sorted, rfl⟩, delivers_aggregated false (delivers_case cs h)⟩
  simp only [openedStore, openFileset, Bool.false_eq_true, if_false, hF, Out.ok_bind]

/-- A query that does not need the index delivers what is asked for from any store. -/
theorem store_delivers {D : Disk} {st : Store} {agg : Bool} {Us : List Rec} (hC : Contents D st agg Us) {q : Query} {want : Rec → Bool}
    (hb : Bounded q.bounds want)
    (h : ∀ Vs S, Stored Vs → Vs ⊆ Us → Offers Vs q S → DeliversFrom S q (Vs.filter want)) (cs : Bool) (w : World) :
    ∃ xs, Arranged agg xs (Us.filter want) ∧ (∀ x ∈ xs, x ∈ Us ∧ x.legal) ∧ StoreDelivers D st (cliQuery q cs agg) w xs := by
  cases hC with
  | @file f Ts h1 h2 _ =>
    refine ⟨Us.filter want, by simp [Arranged], fun x hx => ?_, file_delivers h1 h2 (h Us _ h2 (fun _ => id) (offers_plain h2 q _)) cs true w⟩
    exact ⟨(List.mem_filter.1 hx).1, h2.legal x (List.mem_filter.1 hx).1⟩
  | @merged path ws recs Us hU _ =>
    refine ⟨Us.filter want, by simp [Arranged], fun x hx => ?_, ?_⟩
    · exact ⟨(List.mem_filter.1 hx).1, hU.stored.legal x (List.mem_filter.1 hx).1⟩
    · obtain ⟨F, -, -, -, hF, -⟩ := fenced_total hU.small hU.file q.bounds D.env w
      obtain ⟨pick, hv⟩ := hU.view
      exact merged_delivers hU.file hU.small hF
        (h Us _ hU.stored (fun _ => id) (offers_fileset (fun f hf => (hU.file f hf).truthfulFile) hF hv)) cs
  | @loose path ws recs hU _ =>
    obtain ⟨Xs, Vs, K, L, R, K', L', R', h1, -, -, hX, -, hG, hS, hp, ho⟩ := loose_total hU q.bounds D.env w w
    have hs : Vs ⊆ (D.members path).flatMap recs := by
      intro x hx
      obtain ⟨f, hf, hx⟩ := List.mem_flatMap.1 (hp.mem_iff.1 hx)
      exact List.mem_flatMap.2 ⟨f, hG.perm.mem_iff.2 (by simp [hf]), hx⟩
    refine ⟨Vs.filter want, ?_, fun x hx => ?_, loose_delivers h1 hX hS (h Vs _ hS hs ?_) cs⟩
    · show (if false = true then _ else _)
      rw [if_neg (by simp)]
      exact ⟨(hp.filter want).trans (kept_filter hU.file hG hb), ho.filter _⟩
    · exact ⟨hs (List.mem_filter.1 hx).1, hS.legal x (List.mem_filter.1 hx).1⟩
    · exact fun _ _ _ hG hT => stored_core hS D.env.seekKept _ hG fun _ => hT

/-- The same for queries that need the index. -/
theorem store_delivers_by {D : Disk} {I : List Rec → Prop} {st : Store} {agg : Bool} {Us : List Rec}
    (hC : ContentsOf D I st agg Us) {q : Query} {want : Rec → Bool} {text : Rec → Bytes} {w : World}
    (h1 : ∀ f, st = .file f → f.rows = rowsOf Us → Stored Us → I Us → Delivers Us q (sortedBy text (Us.filter want)))
    (h2 : ∀ path ws recs, st = .setfile path → agg = true → Fileset ws (D.members path) recs Us →
      (∀ f ∈ D.members path, I (recs f)) → ∃ F, fencedFiles q.bounds D.env w (D.members path) = .ok F ∧
        DeliversFrom (filesetSources q.bounds D.env F) q (sortedBy text (Us.filter want)))
    (h3 : ∀ path ws recs, st = .setfile path → agg = false → Us = (D.members path).flatMap recs →
      LooseFiles ws (D.members path) recs → (∀ f ∈ D.members path, I (recs f)) →
      ∃ O, openFileset { q with aggregated := false } D.env w w (D.members path) = .ok O ∧
        ∃ E', E'.Perm (Us.filter want) ∧ E'.Pairwise RecLe ∧
          DeliversFrom (O.sources q D.env) { q with aggregated := false } (sortedBy text E')) (cs : Bool) :
    ∃ xs, ArrangedBy text agg xs (Us.filter want) ∧ (∀ x ∈ xs, x ∈ Us ∧ x.legal) ∧
      StoreDelivers D st (cliQuery q cs agg) w xs := by
  have hleg : ∀ x ∈ Us, x.legal := by
    cases hC with
    | file _ h _ => exact h.legal
    | merged h _ => exact h.stored.legal
    | loose h _ =>
      intro x hx
      obtain ⟨f, hf, hx⟩ := List.mem_flatMap.1 hx
      exact (h.file f hf).stored.legal x hx
  have done : ∀ {xs : List Rec}, xs.Perm (Us.filter want) → ∀ x ∈ sortedBy text xs, x ∈ Us ∧ x.legal := fun hp x hx => by
    have := (List.mem_filter.1 (hp.mem_iff.1 ((sortedBy_perm text _).mem_iff.1 hx))).1
    exact ⟨this, hleg x this⟩
  cases hC with
  | @file f Ts hf hS hI =>
    exact ⟨_, ⟨_, by simp [Arranged], rfl⟩, done (List.Perm.refl _),
      file_delivers hf hS (h1 f rfl hf hS hI f.seekFails) cs true w⟩
  | @merged path ws recs Us hU hI =>
    obtain ⟨F, hF, e2⟩ := h2 path ws recs rfl rfl hU hI
    exact ⟨_, ⟨_, by simp [Arranged], rfl⟩, done (List.Perm.refl _), merged_delivers hU.file hU.small hF e2 cs⟩
  | @loose path ws recs hU hI =>
    obtain ⟨O, hO, E, e0, e1, e2⟩ := h3 path ws recs rfl rfl rfl hU hI
    obtain ⟨Xs, Vs, K, L, R, K', L', R', f1, -, -, hX, -, hG, hS, -⟩ := loose_total hU q.bounds D.env w w
    have e : openFileset { q with aggregated := false } D.env w w (D.members path) = .ok (.loose ⟨rowsOf Xs, rowsOf Vs⟩) := by
      simp only [openFileset, Bool.false_eq_true, if_false, f1, Out.ok_bind]
    rw [e] at hO
    cases hO
    refine ⟨_, ⟨E, by simp [Arranged, e0, e1], rfl⟩, done e0, .fileset (.loose ⟨rowsOf Xs, rowsOf Vs⟩), ?_,
      ⟨rowsOf Vs, rowsOf Xs, D.env.seekKept, D.env.seekIndex, none, none, hS.sorted, hX.sorted, rfl⟩, delivers_case cs e2⟩
    simp only [openedStore, openFileset, Bool.false_eq_true, if_false, f1, Out.ok_bind]

/-! ## What the commands ask for -/


theorem times_unique {T : TimeLibs} (hT : TimeLibsOk T) {opts : List OptEvent} (ho : ∀ e ∈ opts, OrdinaryOption T e)
    {t t' : CliTimes} (h : TimesGiven opts t) (h' : TimesGiven opts t') : t = t' := by
  have e1 := Val.unique (timeVal_unique hT ho (by decide)) (timeGiven_iff.1 h.firstAfter) (timeGiven_iff.1 h'.firstAfter)
  have e2 := Val.unique (timeVal_unique hT ho (by decide)) (timeGiven_iff.1 h.lastAfter) (timeGiven_iff.1 h'.lastAfter)
  have e3 := Val.unique (timeVal_unique hT ho (by decide)) (timeGiven_iff.1 h.lastBefore) (timeGiven_iff.1 h'.lastBefore)
  have e4 := Val.unique (timeVal_unique hT ho (by decide)) (timeGiven_iff.1 h.firstBefore) (timeGiven_iff.1 h'.firstBefore)
  obtain ⟨a, b, c, d⟩ := t
  simp only at e1 e2 e3 e4
  rw [e1, e2, e3, e4]

theorem inTimes_iff {opts : List OptEvent} {t : CliTimes} {o : Obs} (hl : o.legal) (h : given opts 99 = true → o.first ≤ o.last) :
    inBounds (cliBounds (given opts 99) t) o = true ↔ InTimes opts t o := by
  unfold InTimes
  cases hg : given opts 99 with
  | true =>
    rw [if_pos rfl, ← C46_strict_partial t o hl (h hg), timeMatch_value hl, Out.ok.injEq]
  | false =>
    rw [if_neg (by simp), ← C46_loose t o hl, timeMatch_value hl, Out.ok.injEq]

theorem Named.unique {L : Libs} {cs : Bool} {s n n' : Bytes} (h : Named L cs s n) (h' : Named L cs s n') : n = n' := by
  obtain ⟨m, h1, h2⟩ := h
  obtain ⟨m', h1', h2'⟩ := h'
  rw [h1] at h1'
  cases h1'
  rw [h2, h2']

theorem number_unique {T : TimeLibs} {opts : List OptEvent} (ho : ∀ e ∈ opts, OrdinaryOption T e) {c : UInt8}
    (hc : c ∈ lit "itO") {a b : Nat} (h : NumberGiven opts c a) (h' : NumberGiven opts c b) : a = b :=
  Val.unique (numVal_unique ho hc) (numberGiven_iff.1 h) (numberGiven_iff.1 h')

theorem isHex_unique {c : UInt8} {v w : Nat} (h : IsHex c v) (h' : IsHex c w) : v = w := by
  have e1 := isHex_hexToInt c ⟨v, isHex_lt h⟩ h
  have e2 := isHex_hexToInt c ⟨w, isHex_lt h'⟩ h'
  rw [e1] at e2
  have e3 := congrArg UInt8.toNat (Option.some.inj e2)
  simp only [UInt8.toNat_ofNat'] at e3
  have := isHex_lt h
  have := isHex_lt h'
  omega

theorem Hex.unique {s : Bytes} : ∀ {bs cs : Bytes}, Hex s bs → Hex s cs → bs = cs := by
  intro bs cs h
  induction h generalizing cs with
  | nil => intro h'; cases h'; rfl
  | @cons c d b s bs h1 h2 _ ih =>
    intro h'
    cases h' with
    | @cons _ _ b' _ bs' h1' h2' h3' =>
      rw [ih h3']
      have e1 := isHex_unique h1 h1'
      have e2 := isHex_unique h2 h2'
      have : b.toNat = b'.toNat := by omega
      rw [UInt8.toNat_inj.1 this]

/-- What a type on the command line makes of the query. -/
theorem type_step {L : Libs} {q q' : Query} {mt : Option Bytes} {ty : Option Nat} (h : Asks L q (.rrtype mt) q')
    (ht : TypeText L mt ty) : q' = { q with doRrtype := ty.isSome, rrtype := ty.getD q.rrtype } := by
  cases ht with
  | absent => cases h; rfl
  | any hA =>
    cases h with
    | rrtype h => exact absurd hA h
    | anyRrtype _ => rfl
  | type hA ht h0 =>
    cases h with
    | anyRrtype h => exact absurd h hA
    | rrtype _ ht' _ => rw [ht] at ht'; subst ht'; rfl

/-- The query of a command with the parameters given by options. -/
def askOf (opts : List OptEvent) (ty : Option Nat) (bw : Option Name) (t : CliTimes) (off : Nat) : Ask :=
  { ty := ty, bw := bw, times := cliBounds (given opts 99) t, offset := off }

section
variable {L : Libs} {T : TimeLibs} (hT : TimeLibsOk T) {opts : List OptEvent} (ho : ∀ e ∈ opts, OrdinaryOption T e)
  {t : CliTimes} (ht : TimesGiven opts t) {off : Nat} (hoff : NumberGiven opts 79 off) {q : Query}

include hT ho ht hoff

theorem meant_query {cmd : Command} (h : Meant L cmd opts q) :
    ∃ q', AsksAll L { qType := cmd.kind, caseSensitive := given opts 67 } cmd.setters q' ∧
      q = { q' with bounds := if cmd.records then cliBounds (given opts 99) t else {}, offset := off,
                    aggregated := !given opts 117 } := by
  obtain ⟨q', t', off', h1, t1, t2, t3, t4, t5, rfl⟩ := h
  obtain rfl := times_unique hT ho ht ⟨t1, t2, t3, t4⟩
  obtain rfl := number_unique ho (by decide) hoff t5
  exact ⟨q', h1, rfl⟩

theorem meant_rrset {o : Bytes} {more : Option (Bytes × Option Bytes)} (h : Meant L (.rrset o more) opts q)
    {n : Bytes} (hN : Named L (given opts 67) o n) {ty : Option Nat} (hty : TypeText L (more.map (·.1)) ty)
    {bw : Option Name} (hbw : BailiwickText L (more.bind (·.2)) bw) :
    q = cliQuery ((askOf opts ty bw t off).query .rrset n) (given opts 67) (!given opts 117) := by
  obtain ⟨q', h1, rfl⟩ := meant_query hT ho ht hoff h
  clear h
  have hs : (Command.rrset o more).setters = [.data (some o), .rrtype (more.map (·.1)), .bailiwick (more.bind (·.2))] := by
    cases more <;> rfl
  rw [hs] at h1
  generalize more.map (·.1) = mt at h1 hty
  generalize more.bind (·.2) = mb at h1 hbw
  clear hs
  cases h1 with
  | cons a1 h1 =>
  cases h1 with
  | cons a2 h1 =>
  cases h1 with
  | cons a3 h1 =>
  cases h1
  cases a1 with
  | raw h => cases h
  | version h => cases h
  | address h => cases h
  | range h => cases h
  | pref h => cases h
  | name _ hn =>
  have e := Named.unique hn hN
  subst e
  have e := type_step a2 hty
  subst e
  cases hbw with
  | absent => cases a3 with | noBailiwick => rfl
  | name hl hn =>
    cases a3 with
    | bailiwick _ hl' hn' =>
      have e := wire_inj hl.1 hl'.1 (Named.unique hn hn')
      subst e; rfl

theorem meant_name {s : Bytes} {mt : Option Bytes} (h : Meant L (.name s mt) opts q)
    {n : Bytes} (hN : Named L (given opts 67) s n) {ty : Option Nat} (hty : TypeText L mt ty) :
    q = cliQuery ((askOf opts ty none t off).query .rdataName n) (given opts 67) (!given opts 117) := by
  obtain ⟨q', h1, rfl⟩ := meant_query hT ho ht hoff h
  clear h
  cases mt with
  | none =>
    cases hty
    cases h1 with
    | cons a1 h1 =>
    cases h1
    cases a1 with
    | raw h => cases h
    | version h => cases h
    | address h => cases h
    | range h => cases h
    | pref h => cases h
    | name _ hn =>
    have e := Named.unique hn hN
    subst e; rfl
  | some mt =>
    cases h1 with
    | cons a1 h1 =>
    cases h1 with
    | cons a2 h1 =>
    cases h1
    cases a1 with
    | raw h => cases h
    | version h => cases h
    | address h => cases h
    | range h => cases h
    | pref h => cases h
    | name _ hn =>
    have e := Named.unique hn hN
    subst e
    have e := type_step a2 hty
    subst e; rfl

theorem meant_raw {s : Bytes} {mt : Option Bytes} (h : Meant L (.raw s mt) opts q)
    {d : Bytes} (hd : Hex s d) {ty : Option Nat} (hty : TypeText L mt ty) :
    q = cliQuery { (askOf opts ty none t off).query .rdataRaw [] with rdata := some d, lenRdata := d.length }
      (given opts 67) (!given opts 117) := by
  obtain ⟨q', h1, rfl⟩ := meant_query hT ho ht hoff h
  clear h
  cases mt with
  | none =>
    cases hty
    cases h1 with
    | cons a1 h1 =>
    cases h1
    cases a1 with
    | name h => rcases h with h | h <;> cases h
    | version h => cases h
    | address h => cases h
    | range h => cases h
    | pref h => cases h
    | raw _ _ hn =>
    have e := Hex.unique hn hd
    subst e; rfl
  | some mt =>
    cases h1 with
    | cons a1 h1 =>
    cases h1 with
    | cons a2 h1 =>
    cases h1
    cases a1 with
    | name h => rcases h with h | h <;> cases h
    | version h => cases h
    | address h => cases h
    | range h => cases h
    | pref h => cases h
    | raw _ _ hn =>
    have e := Hex.unique hn hd
    subst e
    have e := type_step a2 hty
    subst e; rfl

theorem meant_ip (hL : LibsOk L) {s : Bytes} (h : Meant L (.ip s) opts q) :
    ∃ n P lo hi, AddressesOf L s n P ∧ lo.length = n ∧ (hi = [] ∨ hi.length = n) ∧
      (∀ x : Bytes, x.length = n →
        ((if hi = [] then x = lo else addrVal lo ≤ addrVal x ∧ addrVal x ≤ addrVal hi) ↔ P x)) ∧
      q = cliQuery ((askOf opts none none t off).addresses (if n = 4 then 1 else 28) lo hi) (given opts 67) (!given opts 117) := by
  obtain ⟨q', h1, rfl⟩ := meant_query hT ho ht hoff h
  clear h
  have hlen : ∀ {s a}, AddressText L s a → a.length = 4 ∨ a.length = 16 := by
    rintro s a (h | ⟨-, h⟩)
    · exact .inl (hL.pton4 _ _ h)
    · exact .inr (hL.pton6 _ _ h)
  cases h1 with
  | cons a1 h1 =>
  cases h1
  cases a1 with
  | raw h => cases h
  | version h => cases h
  | name h => rcases h with h | h <;> cases h
  | @address _ a _ h1 h2 h3 =>
    exact ⟨_, _, a, [], .one h1 h2 h3, rfl, .inl rfl, fun x _ => by rw [if_pos rfl], rfl⟩
  | @range _ x y a b _ h1 h2 h3 h4 h5 =>
    refine ⟨_, _, a, b, .range h1 h2 h3 h4 h5, rfl, .inr h5.symm, fun x _ => ?_, rfl⟩
    rw [if_neg (by rintro rfl; have := hlen h4; simp at this)]
  | @pref _ a n lo hi _ h1 h2 h3 h4 h5 =>
    refine ⟨_, _, lo, hi, .pref h1 h2, h3, .inr h4, fun x hx => ?_, rfl⟩
    obtain ⟨-, -, x', y', -, h6, -⟩ := h1
    rw [if_neg (by rintro rfl; have := hlen h6; simp at h4; omega), ← h5 x hx,
      lexLe_addr (by omega), lexLe_addr (by omega)]

theorem meant_version {mt : Option Bytes} (h : Meant L (.version mt) opts q) :
    (mt = none ∧ q = cliQuery { qType := .version, offset := off } (given opts 67) (!given opts 117)) ∨
    ∃ k s, mt = some s ∧ (k, s) ∈ versionNames ∧
      q = cliQuery { qType := .version, hasVType := true, vType := UInt8.ofNat k, offset := off }
        (given opts 67) (!given opts 117) := by
  obtain ⟨q', h1, rfl⟩ := meant_query hT ho ht hoff h
  clear h
  cases h1 with
  | cons a1 h1 =>
  cases h1
  cases a1 with
  | noName h => rcases h with h | h <;> cases h
  | name h => rcases h with h | h <;> cases h
  | raw h => cases h
  | noRaw h => cases h
  | address h => cases h
  | noAddress h => cases h
  | range h => cases h
  | pref h => cases h
  | noVersion _ => exact .inl ⟨rfl, rfl⟩
  | version _ h => exact .inr ⟨_, _, rfl, h, rfl⟩

theorem meant_timeRange (h : Meant L .timeRange opts q) :
    q = cliQuery { qType := .timeRange, offset := off } (given opts 67) (!given opts 117) := by
  obtain ⟨q', h1, rfl⟩ := meant_query hT ho ht hoff h
  clear h
  cases h1
  rfl

end

theorem words_inj {c d : Command} (h : c.words = d.words) : c = d := by
  have e1 : lit "rrset" ≠ lit "rdata" := by decide
  have e2 : lit "rrset" ≠ lit "version" := by decide
  have e3 : lit "rrset" ≠ lit "time_range" := by decide
  have e4 : lit "rdata" ≠ lit "version" := by decide
  have e5 : lit "rdata" ≠ lit "time_range" := by decide
  have e6 : lit "version" ≠ lit "time_range" := by decide
  have e7 : lit "ip" ≠ lit "raw" := by decide
  have e8 : lit "ip" ≠ lit "name" := by decide
  have e9 : lit "raw" ≠ lit "name" := by decide
  have hs : ∀ {a b : Option Bytes}, a.toList = b.toList → a = b := by
    intro a b h
    cases a <;> cases b <;> simp at h <;> simp [h]
  rcases c with ⟨o, _ | ⟨t, _ | b⟩⟩ | a | ⟨h1, t1⟩ | ⟨n1, t1⟩ | t1 | _ <;>
    rcases d with ⟨o', _ | ⟨t', _ | b'⟩⟩ | a' | ⟨h1', t1'⟩ | ⟨n1', t1'⟩ | t1' | _ <;>
    simp [Command.words, e1, e2, e3, e4, e5, e6, e7, e8, e9, e1.symm, e2.symm, e3.symm, e4.symm, e5.symm, e6.symm,
      e7.symm, e8.symm, e9.symm] at h ⊢ <;> first | exact h | exact ⟨h.1, hs h.2⟩ | exact hs h

theorem contents_legal {D : Disk} {I : List Rec → Prop} {st : Store} {agg : Bool} {Us : List Rec} (h : ContentsOf D I st agg Us) : ∀ x ∈ Us, x.legal := by
  cases h with
  | file _ h _ => exact h.legal
  | merged h _ => exact h.stored.legal
  | loose h _ =>
    intro x hx
    obtain ⟨f, hf, hx⟩ := List.mem_flatMap.1 hx
    exact (h.file f hf).stored.legal x hx

theorem addresses_kind {L : Libs} (hL : LibsOk L) {s : Bytes} {n : Nat} {P : Bytes → Prop} (h : AddressesOf L s n P) :
    AddrKind n (if n = 4 then 1 else 28) := by
  have hlen : ∀ {s a}, AddressText L s a → AddrKind a.length (if a.length = 4 then 1 else 28) := by
    rintro s a (h | ⟨-, h⟩)
    · exact .inl ⟨hL.pton4 _ _ h, by rw [hL.pton4 _ _ h]; rfl⟩
    · exact .inr ⟨hL.pton6 _ _ h, by rw [hL.pton6 _ _ h]; rfl⟩
  cases h with
  | one _ _ h => exact hlen h
  | range _ _ h => exact hlen h
  | pref h _ =>
    obtain ⟨-, -, _, _, -, h, -⟩ := h
    exact hlen h

end Verif
