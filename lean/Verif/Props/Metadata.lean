import Verif.Lemmas.Metadata
import Verif.Props.Program

/-! # C59: queries for time ranges and versions -/

namespace Verif.Props

open Verif Verif.Spec

section
variable {Ts : List Rec} {q : Query} {kind : Option UInt8}

theorem timeRange_from (hq : AsksTimeRange q) (hS : Stored Ts) (sf : View → Bytes → Bool) (I : Mach) :
    DeliversFrom ⟨curM (rowsOf Ts) sf, I, none, none⟩ q (Ts.filter isTimeRange) :=
  plain_prefix hS sf I (initKind_timeRange hq) hq.2 fun x _ => prefix_timeRange x

theorem version_from (hq : AsksVersion kind q) (hS : Stored Ts) (sf : View → Bytes → Bool) (I : Mach) :
    DeliversFrom ⟨curM (rowsOf Ts) sf, I, none, none⟩ q (Ts.filter (isVersion kind)) :=
  plain_prefix hS sf I (initKind_version hq) hq.2.1 fun x _ => prefix_version kind x

/-- C59, files.  A query for the time range of a file delivers it, and nothing if the file has none. -/
theorem C59_time_range (hq : AsksTimeRange q) (hS : Stored Ts) : Delivers Ts q (Ts.filter isTimeRange) :=
  fun sf => timeRange_from hq hS sf _

/-- A query for versions delivers those of the file, or only that of the kind of entries given. -/
theorem C59_version (hq : AsksVersion kind q) (hS : Stored Ts) : Delivers Ts q (Ts.filter (isVersion kind)) :=
  fun sf => version_from hq hS sf _

end

section
variable {ws : List Nat} {files : List Src} {recs : Src → List Rec} {Us : List Rec} {q : Query} {kind : Option UInt8}

/-- C59, aggregated sets of files.  A query for the time range delivers one entry, from the earliest start to the
latest end of the time ranges of the files, and nothing if no file has one. -/
theorem C59_set_time_range (hq : AsksTimeRange q) (hU : Fileset ws files recs Us) :
    ∃ E, FilesDeliver files q E ∧ E.length ≤ 1 ∧ ∀ x, x ∈ E ↔ ∃ a b, x = .timeRange a b ∧ Spans (files.flatMap recs) a b := by
  obtain ⟨pick, hv⟩ := hU.view
  refine ⟨Us.filter isTimeRange, fun env w => ?_, ?_, fun x => ?_⟩
  · obtain ⟨Xs, h1, h2, h3⟩ := fencedFiles_none hU.small hU.file env w
    rw [hq.2]
    refine ⟨_, h1, ?_⟩
    rw [← views_timeRange hU.file h3 h2 hv hU.stored]
    exact timeRange_from hq h2 _ _
  · have h := (view_strict hU.file hv).filter isTimeRange
    have hk : ∀ x ∈ Us.filter isTimeRange, x.key = [254] := by
      intro x hx
      have := (List.mem_filter.1 hx).2
      cases x <;> simp [isTimeRange] at this
      rfl
    generalize Us.filter isTimeRange = E at h hk
    match E, h, hk with
    | [], _, _ => simp
    | [x], _, _ => simp
    | x :: y :: E, h, hk =>
      have := List.rel_of_pairwise_cons h (List.mem_cons_self)
      rw [hk x (by simp), hk y (by simp), lexLt_irrefl] at this
      cases this
  · rw [List.mem_filter]
    constructor
    · rintro ⟨h1, h2⟩
      cases x <;> simp [isTimeRange] at h2
      exact ⟨_, _, rfl, (view_span hU.file hv hU.stored _ _).1 h1⟩
    · rintro ⟨a, b, rfl, h⟩
      exact ⟨(view_span hU.file hv hU.stored _ _).2 h, rfl⟩

/-- A query for versions delivers for every kind of entries that has versions, or for the one given, the least of
them, by kind. -/
theorem C59_set_version (hq : AsksVersion kind q) (hU : Fileset ws files recs Us) :
    ∃ E, FilesDeliver files q E ∧ E.Pairwise (fun x y => lexLt x.key y.key = true) ∧
      ∀ x, x ∈ E ↔ ∃ t v, x = .version t v ∧ (∀ k, kind = some k → t = k) ∧ LeastVersion (files.flatMap recs) t v := by
  obtain ⟨pick, hv⟩ := hU.view
  refine ⟨Us.filter (isVersion kind), fun env w => ?_, (view_strict hU.file hv).filter _, fun x => ?_⟩
  · obtain ⟨Xs, h1, h2, h3⟩ := fencedFiles_none hU.small hU.file env w
    rw [hq.2.1]
    refine ⟨_, h1, ?_⟩
    rw [← views_version hU.file h3 h2 hv hU.stored]
    exact version_from hq h2 _ _
  · have e : ∀ t, kind.all (· == t) = true ↔ ∀ k, kind = some k → t = k := by
      intro t
      cases kind with
      | none => simp
      | some k => simp; exact eq_comm
    rw [List.mem_filter]
    constructor
    · rintro ⟨h1, h2⟩
      cases x <;> simp only [isVersion, Bool.false_eq_true] at h2
      exact ⟨_, _, rfl, (e _).1 h2, (view_version hU.file hv hU.stored _ _).1 h1⟩
    · rintro ⟨t, v, rfl, h1, h2⟩
      exact ⟨(view_version hU.file hv hU.stored _ _).2 h2, (e t).2 h1⟩

theorem loose_meta (hU : LooseFiles ws files recs) (hb : q.bounds = {}) {want : Rec → Bool}
    (h : ∀ Vs sf I, Stored Vs → DeliversFrom ⟨curM (rowsOf Vs) sf, I, none, none⟩ q (Vs.filter want)) :
    LooseDeliver files q ((files.flatMap recs).filter want) := by
  intro env w w'
  obtain ⟨Xs, Vs, h1, -, h2, h3, h4⟩ := looseFiles_none hU env w w'
  refine ⟨.loose ⟨rowsOf Xs, rowsOf Vs⟩, ?_, Vs.filter want, h3.filter _, h4.filter _, delivers_aggregated false (h Vs _ _ h2)⟩
  simp only [openFileset, Bool.false_eq_true, if_false, hb, h1, Out.ok_bind]

/-- C59, unaggregated sets of files: the time ranges of all files. -/
theorem C59_loose_time_range (hq : AsksTimeRange q) (hU : LooseFiles ws files recs) :
    LooseDeliver files q ((files.flatMap recs).filter isTimeRange) :=
  loose_meta hU hq.2 fun _ _ _ h => timeRange_from hq h _ _

/-- The versions in all files, by kind. -/
theorem C59_loose_version (hq : AsksVersion kind q) (hU : LooseFiles ws files recs) :
    LooseDeliver files q ((files.flatMap recs).filter (isVersion kind)) :=
  loose_meta hU hq.2.1 fun _ _ _ h => version_from hq h _ _

end

/-! ## The program -/

section
variable {A : Arith} {L : Libs} {T : TimeLibs} {D : Disk} {E : CmdEnv} {opts : List OptEvent} {v : Printer} {X : Texts}

theorem store_meta {st : Store} {agg : Bool} {Us : List Rec} (hC : Contents D st agg Us) {q : Query} (hb : q.bounds = {})
    {want : Rec → Bool}
    (h : ∀ Vs sf I, Stored Vs → DeliversFrom ⟨curM (rowsOf Vs) sf, I, none, none⟩ q (Vs.filter want))
    (hV : ∀ {ws : List Nat} {files : List Src} {recs : Src → List Rec} {pick pick' : List Table → Nat} {Xs Ys : List Rec},
      (∀ f ∈ files, FileOf ws f (recs f)) → aggregated pick (files.map (·.rows)) = .ok (rowsOf Xs) → Stored Xs →
      aggregated pick' (files.map (·.rows)) = .ok (rowsOf Ys) → Stored Ys → Xs.filter want = Ys.filter want)
    (cs : Bool) (w : World) :
    ∃ xs, Arranged agg xs (Us.filter want) ∧ (∀ x ∈ xs, x ∈ Us ∧ x.legal) ∧ StoreDelivers D st (cliQuery q cs agg) w xs := by
  have hleg := contents_legal hC
  have mem : ∀ x ∈ Us.filter want, x ∈ Us ∧ x.legal := fun x hx =>
    ⟨(List.mem_filter.1 hx).1, hleg x (List.mem_filter.1 hx).1⟩
  cases hC with
  | @file f Ts h1 h2 _ => exact ⟨Us.filter want, by simp [Arranged], mem, file_delivers h1 h2 (h Us _ _ h2) cs true w⟩
  | @merged path ws recs Us hU _ =>
    refine ⟨Us.filter want, by simp [Arranged], mem, ?_⟩
    obtain ⟨pick, hv⟩ := hU.view
    obtain ⟨Xs, h1, h2, h3⟩ := fencedFiles_none hU.small hU.file D.env w
    refine merged_delivers hU.file hU.small (by rw [hb]; exact h1) ?_ cs
    rw [hb, ← hV hU.file h3 h2 hv hU.stored]
    exact h Xs _ _ h2
  | @loose path ws recs hU _ =>
    obtain ⟨Xs, Vs, h1, h2, h3, h4, h5⟩ := looseFiles_none hU D.env w w
    refine ⟨Vs.filter want, ?_, fun x hx => ?_, loose_delivers (by rw [hb]; exact h1) h2 h3 (h Vs _ _ h3) cs⟩
    · simp only [Arranged, Bool.false_eq_true, if_false]
      exact ⟨h4.filter _, h5.filter _⟩
    · have := (List.mem_filter.1 hx).1
      exact ⟨h4.mem_iff.1 this, h3.legal x this⟩

/-- The kind of entries asked for with `version`. -/
inductive KindText : Option Bytes → Option UInt8 → Prop where
  | absent : KindText none none
  | named {k s} : (k, s) ∈ versionNames → KindText (some s) (some (UInt8.ofNat k))

/-- C59, the command `time_range`: the program writes the time range of the file, the one of the aggregated set of
files, or with `-u` those of all files.  Options for times play no part. -/
theorem C59_program_time_range_partial (hS : Setting L T v X opts) {s : Started}
    (hcmd : Commands L D.opens E opts Command.timeRange.words s) {t : CliTimes} (ht : TimesGiven opts t)
    {Us : List Rec} (hC : Contents D s.store (!given opts 117) Us) (hW : ∀ x ∈ Us, Writable (flagsOf opts) x) :
    AnswersWith A L T D E opts v X .timeRange (Arranged (!given opts 117)) Us fun x => ∃ a b, x = .timeRange a b := by
  refine answers_from hS hcmd (fun _ _ _ e => by cases e) hW (want := isTimeRange) ?_ ?_
  · intro x _
    cases x <;> simp [isTimeRange]
  · intro off hoff
    obtain ⟨cmd', e, -, -, -, -, hm, -⟩ := hcmd
    obtain rfl := words_inj e
    have hq : AsksTimeRange ({ qType := .timeRange, offset := off } : Query) := ⟨rfl, rfl⟩
    exact ⟨_, meant_timeRange hS.times hS.ordinary ht hoff hm, rfl, rfl, (show (0 : Nat) < 2 ^ 32 by decide), fun w =>
      store_meta hC rfl (fun _ _ _ h => timeRange_from hq h _ _) views_timeRange _ w⟩

/-- C59, the command `version [TYPE]`. -/
theorem C59_program_version_partial (hS : Setting L T v X opts) {mt : Option Bytes} {s : Started}
    (hcmd : Commands L D.opens E opts (Command.version mt).words s) {t : CliTimes} (ht : TimesGiven opts t)
    {Us : List Rec} (hC : Contents D s.store (!given opts 117) Us) (hW : ∀ x ∈ Us, Writable (flagsOf opts) x) :
    ∃ kind, KindText mt kind ∧
      AnswersWith A L T D E opts v X (.version mt) (Arranged (!given opts 117)) Us fun x =>
        ∃ t v, x = .version t v ∧ ∀ k, kind = some k → t = k := by
  obtain ⟨cmd', e, -, -, -, -, hm, -⟩ := id hcmd
  obtain rfl := words_inj e
  obtain ⟨off0, hoff0⟩ : ∃ off, NumberGiven opts 79 off := by
    obtain ⟨_, _, off, _, _, _, _, _, h, _⟩ := hm
    exact ⟨off, h⟩
  obtain ⟨kind, hk, hall⟩ : ∃ kind, KindText mt kind ∧ ∀ off, NumberGiven opts 79 off → ∃ q,
      AsksVersion kind q ∧ s.query = cliQuery q (given opts 67) (!given opts 117) ∧ q.offset = off ∧ q.lim = {} ∧ q.rrtype = 0 := by
    rcases meant_version hS.times hS.ordinary ht hoff0 hm with ⟨rfl, -⟩ | ⟨k, x, rfl, hx, -⟩
    · refine ⟨none, .absent, fun off hoff => ?_⟩
      rcases meant_version hS.times hS.ordinary ht hoff hm with ⟨-, h⟩ | ⟨_, _, h, -⟩
      · exact ⟨_, ⟨rfl, rfl, rfl, fun t e => by cases e⟩, h, rfl, rfl, rfl⟩
      · cases h
    · refine ⟨some (UInt8.ofNat k), .named hx, fun off hoff => ?_⟩
      rcases meant_version hS.times hS.ordinary ht hoff hm with ⟨h, -⟩ | ⟨k', x', h, hx', h'⟩
      · cases h
      · cases h
        have : k' = k := by
          simp only [versionNames, List.mem_cons, List.not_mem_nil, or_false, Prod.mk.injEq] at hx hx'
          rcases hx with ⟨rfl, rfl⟩ | ⟨rfl, rfl⟩ | ⟨rfl, rfl⟩ | ⟨rfl, rfl⟩ <;>
            rcases hx' with ⟨rfl, h⟩ | ⟨rfl, h⟩ | ⟨rfl, h⟩ | ⟨rfl, h⟩ <;> first | rfl | exact absurd h (by decide)
        subst this
        exact ⟨_, ⟨rfl, rfl, rfl, fun t e => by cases e; rfl⟩, h', rfl, rfl, rfl⟩
  refine ⟨kind, hk, answers_from hS hcmd (fun _ _ _ e => by cases e) hW (want := isVersion kind) ?_ ?_⟩
  · intro x _
    cases x <;> simp only [isVersion, Bool.false_eq_true, reduceCtorEq, false_and, exists_false,
      Rec.version.injEq]
    rename_i t' v'
    cases kind with
    | none => simp
    | some k =>
      simp only [Option.all_some, beq_iff_eq]
      exact ⟨fun h => ⟨_, _, ⟨rfl, rfl⟩, fun k' e => by cases e; exact h.symm⟩, fun ⟨_, _, ⟨e, _⟩, h⟩ => by rw [e]; exact (h k rfl).symm⟩
  · intro off hoff
    obtain ⟨q, h1, h2, h3, h4, h5⟩ := hall off hoff
    exact ⟨q, h2, h3, h4, (by rw [h5]; decide), fun w =>
      store_meta hC h1.2.1 (fun _ _ _ h => version_from h1 h _ _) (fun hf h1 h2 h3 h4 => views_version hf h1 h2 h3 h4 kind) _ w⟩

end

/-! ## Bounds on times -/

/-- C59 needs a query without bounds on times.  With one, queries for versions and for time ranges read past the end
of the value they find: the time filter takes it for two times and a count (`/repo/dnstable/query.c:852-863`). -/
theorem C59_bounds_counterexample :
    ∃ (Ts : List Rec) (q q' : Query), Stored Ts ∧ q.qType = .version ∧ q'.qType = .timeRange ∧
      (∀ E, ¬ Delivers Ts q E) ∧ ∀ E, ¬ Delivers Ts q' E := by
  refine ⟨[.timeRange 5 9, .version 0 2], { qType := .version, bounds := { firstAfter := some 1 } },
    { qType := .timeRange, bounds := { lastBefore := some 9 } }, ?_, rfl, rfl, fun E h => ?_, fun E h => ?_⟩
  · exact ⟨by intro x hx; simp only [List.mem_cons, List.not_mem_nil, or_false] at hx; rcases hx with rfl | rfl <;> simp only [Rec.legal] <;> decide +kernel, by decide +kernel⟩
  · have h1 := h.first (p := _) rfl rfl
    have h2 : ∀ p, initKind ({ qType := .version, bounds := { firstAfter := some 1 } } : Query) = .ok p →
        (queryNext { qType := .version, bounds := { firstAfter := some 1 } }
          (openQuery [.timeRange 5 9, .version 0 2] { qType := .version, bounds := { firstAfter := some 1 } } p)
          (openQuery [.timeRange 5 9, .version 0 2] { qType := .version, bounds := { firstAfter := some 1 } } p).start
          (idleWorld 0)).1 = .fault .oobRead := by
      intro p hp
      have := Out.ok.inj hp
      subst this
      decide +kernel
    have h3 := h2 _ rfl
    rw [h3] at h1
    split at h1 <;> cases h1
  · have h1 := h.first (p := _) rfl rfl
    have h2 : ∀ p, initKind ({ qType := .timeRange, bounds := { lastBefore := some 9 } } : Query) = .ok p →
        (queryNext { qType := .timeRange, bounds := { lastBefore := some 9 } }
          (openQuery [.timeRange 5 9, .version 0 2] { qType := .timeRange, bounds := { lastBefore := some 9 } } p)
          (openQuery [.timeRange 5 9, .version 0 2] { qType := .timeRange, bounds := { lastBefore := some 9 } } p).start
          (idleWorld 0)).1 = .fault .oobRead := by
      intro p hp
      have := Out.ok.inj hp
      subst this
      decide +kernel
    have h3 := h2 _ rfl
    rw [h3] at h1
    split at h1 <;> cases h1

/-! ## Cases -/

/-- A file with its versions, and another one. -/
def exNew : List Rec := [.timeRange 5 9, .version 0 2, .version 1 3]
def exOld : List Rec := [.timeRange 2 6, .version 0 1, .version 2 7]

def exMetaSet : List Src := [⟨rowsOf exNew, fun _ _ => false⟩, ⟨rowsOf exOld, fun _ _ => true⟩]

def exMetaRecs (f : Src) : List Rec := if f.rows = rowsOf exNew then exNew else exOld

theorem exMeta_legal : ∀ x ∈ exNew ++ exOld ++ [.timeRange 2 9, .version 0 1, .version 1 3, .version 2 7], x.legal ∧ Mergeable [0] x := by
  intro x hx
  simp only [exNew, exOld, List.mem_append, List.mem_cons, List.not_mem_nil, or_false] at hx
  rcases hx with ((rfl | rfl | rfl) | rfl | rfl | rfl) | rfl | rfl | rfl | rfl
  all_goals exact ⟨by simp only [Rec.legal]; decide +kernel, by simp only [Mergeable] <;> decide +kernel⟩

theorem exNew_stored : Stored exNew := ⟨fun x hx => (exMeta_legal x (by simp [hx])).1, by decide +kernel⟩

theorem exMeta_fileset :
    Fileset [0] exMetaSet exMetaRecs [.timeRange 2 9, .version 0 1, .version 1 3, .version 2 7] := by
  refine ⟨by decide, ?_, ⟨fun _ => 0, by decide +kernel⟩,
    ⟨fun x hx => (exMeta_legal x (List.mem_append.2 (.inr hx))).1, by decide +kernel⟩⟩
  intro f hf
  simp only [exMetaSet, List.mem_cons, List.not_mem_nil, or_false] at hf
  rcases hf with rfl | rfl
  · have e : exMetaRecs ⟨rowsOf exNew, fun _ _ => false⟩ = exNew := by decide +kernel
    rw [e]
    refine ⟨rfl, exNew_stored, ?_, fun x hx => (exMeta_legal x (by simp [hx])).2⟩
    intro x hx o ho
    simp only [exNew, List.mem_cons, List.not_mem_nil, or_false] at hx
    rcases hx with rfl | rfl | rfl <;> simp [obsOf] at ho
  · have e : exMetaRecs ⟨rowsOf exOld, fun _ _ => true⟩ = exOld := by decide +kernel
    rw [e]
    refine ⟨rfl, ⟨fun x hx => (exMeta_legal x (by simp [hx])).1, by decide +kernel⟩, ?_, fun x hx => (exMeta_legal x (by simp [hx])).2⟩
    intro x hx o ho
    simp only [exOld, List.mem_cons, List.not_mem_nil, or_false] at hx
    rcases hx with rfl | rfl | rfl <;> simp [obsOf] at ho

theorem exMeta_loose : LooseFiles [0] exMetaSet exMetaRecs := by
  refine ⟨by decide, exMeta_fileset.file, ?_⟩
  intro f hf
  simp only [exMetaSet, List.mem_cons, List.not_mem_nil, or_false] at hf
  rcases hf with rfl | rfl <;> simp only <;> decide +kernel

example : Delivers exNew { qType := .timeRange } [.timeRange 5 9] := C59_time_range ⟨rfl, rfl⟩ exNew_stored

example : Delivers exNew { qType := .version } [.version 0 2, .version 1 3] :=
  C59_version (kind := none) ⟨rfl, rfl, rfl, fun _ e => by cases e⟩ exNew_stored

example : Delivers exNew { qType := .version, hasVType := true, vType := 1 } [.version 1 3] :=
  C59_version (kind := some 1) ⟨rfl, rfl, rfl, fun _ e => by cases e; rfl⟩ exNew_stored

/-- Both files together: from 2 to 9. -/
example : ∃ E, FilesDeliver exMetaSet { qType := .timeRange } E ∧ E.length ≤ 1 ∧ .timeRange 2 9 ∈ E := by
  obtain ⟨E, h1, h2, h3⟩ := C59_set_time_range (q := { qType := .timeRange }) ⟨rfl, rfl⟩ exMeta_fileset
  refine ⟨E, h1, h2, (h3 _).2 ⟨2, 9, rfl, ⟨6, by decide +kernel⟩, ⟨5, by decide +kernel⟩, fun a b h => ?_⟩⟩
  rw [show exMetaSet.flatMap exMetaRecs = exNew ++ exOld by decide +kernel] at h
  simp only [exNew, exOld, List.mem_append, List.mem_cons, List.not_mem_nil, or_false, Rec.timeRange.injEq, reduceCtorEq] at h
  omega

/-- The version of RRsets is the older one. -/
example : ∃ E, FilesDeliver exMetaSet { qType := .version, hasVType := true } E ∧ .version 0 1 ∈ E ∧ .version 0 2 ∉ E ∧
    .version 1 3 ∉ E := by
  obtain ⟨E, h1, -, h3⟩ := C59_set_version (q := { qType := .version, hasVType := true }) (kind := some 0)
    ⟨rfl, rfl, rfl, fun _ e => by cases e; rfl⟩ exMeta_fileset
  have hm : Rec.version 0 1 ∈ exMetaSet.flatMap exMetaRecs := by decide +kernel
  refine ⟨E, h1, (h3 _).2 ⟨0, 1, rfl, fun k e => by cases e; rfl, hm, fun v h => ?_⟩, fun h => ?_, fun h => ?_⟩
  · rw [show exMetaSet.flatMap exMetaRecs = exNew ++ exOld by decide +kernel] at h
    simp only [exNew, exOld, List.mem_append, List.mem_cons, List.not_mem_nil, or_false, Rec.version.injEq, reduceCtorEq] at h
    rcases h with (h | ⟨_, h⟩ | ⟨_, h⟩) | h | ⟨_, h⟩ | ⟨_, h⟩ <;> first | exact h.elim | omega
  · obtain ⟨t, v, e, -, -, h⟩ := (h3 _).1 h
    cases e
    have := h 1 hm
    omega
  · obtain ⟨t, v, e, h, -⟩ := (h3 _).1 h
    cases e
    cases h 0 rfl

example : LooseDeliver exMetaSet { qType := .timeRange } [.timeRange 5 9, .timeRange 2 6] := by
  have h := C59_loose_time_range (q := { qType := .timeRange }) ⟨rfl, rfl⟩ exMeta_loose
  rwa [show (exMetaSet.flatMap exMetaRecs).filter isTimeRange = [.timeRange 5 9, .timeRange 2 6] by decide +kernel] at h

example : LooseDeliver exMetaSet { qType := .version } [.version 0 2, .version 1 3, .version 0 1, .version 2 7] := by
  have h := C59_loose_version (q := { qType := .version }) (kind := none) ⟨rfl, rfl, rfl, fun _ e => by cases e⟩ exMeta_loose
  rwa [show (exMetaSet.flatMap exMetaRecs).filter (isVersion none) =
    [.version 0 2, .version 1 3, .version 0 1, .version 2 7] by decide +kernel] at h

/-- A command with `-n` on a single table, for time ranges and versions. -/
theorem exCount_metadata {Ts : List Rec} {cmd : Command} {q : Query} (h1 : ∀ o m, cmd = .rrset o m → 47 ∉ o)
    (h2 : AsksAll exNames { qType := cmd.kind } cmd.setters q) (h3 : cmd.records = false) :
    Commands exNames (exDisk Ts).opens { fname := some (lit "x.mtbl") } exCount cmd.words
      { store := .file ⟨rowsOf Ts, fun _ _ => false⟩, query := { q with bounds := {}, offset := 0, aggregated := true }, timeout := 0,
        interval := 0, flags := flagsOf exCount } := by
  refine ⟨cmd, rfl, h1, exCount_proper, ?_, .file rfl rfl rfl rfl, ⟨q, ⟨0, 0, 0, 0⟩, 0, h2, rfl, rfl, rfl, rfl, rfl, ?_⟩, rfl, rfl, rfl⟩
  · exact ⟨fun _ => ⟨rfl, rfl⟩, by decide⟩
  · rw [h3]; rfl

/-- `dnstable_lookup -n time_range`. -/
example : ∃ v, PrinterOk v exTexts ∧
    AnswersWith strictArith exNames exTime (exDisk exNew) { fname := some (lit "x.mtbl") } exCount v exTexts .timeRange
      (Arranged true) exNew (fun x => ∃ a b, x = .timeRange a b) := by
  obtain ⟨v, hv⟩ := exPrinter_ok
  exact ⟨v, hv, C59_program_time_range_partial (exSetting hv exCount_ordinary)
    (exCount_metadata (Ts := exNew) (cmd := .timeRange) (fun o m e => by cases e) .nil rfl) exCount_times
    (.file rfl exNew_stored trivial) (fun _ _ => trivial)⟩

/-- `dnstable_lookup -n version rrset_name`. -/
example : ∃ v, PrinterOk v exTexts ∧
    AnswersWith strictArith exNames exTime (exDisk exNew) { fname := some (lit "x.mtbl") } exCount v exTexts
      (.version (some (lit "rrset_name"))) (Arranged true) exNew
      (fun x => ∃ t v, x = .version t v ∧ ∀ k, some (1 : UInt8) = some k → t = k) := by
  obtain ⟨v, hv⟩ := exPrinter_ok
  obtain ⟨kind, hk, h⟩ := C59_program_version_partial (A := strictArith) (exSetting hv exCount_ordinary)
    (exCount_metadata (Ts := exNew) (cmd := .version (some (lit "rrset_name"))) (fun o m e => by cases e)
      (.cons (.version (t := 1) rfl (by decide +kernel)) .nil) rfl) exCount_times
    (.file rfl exNew_stored trivial) (fun _ _ => trivial)
  refine ⟨v, hv, ?_⟩
  have e : kind = some 1 := by
    generalize hm : some (lit "rrset_name") = m at hk
    cases hk with
    | absent => cases hm
    | named hx =>
      cases hm
      simp only [versionNames, List.mem_cons, List.not_mem_nil, or_false, Prod.mk.injEq] at hx
      rcases hx with ⟨rfl, h'⟩ | ⟨rfl, h'⟩ | ⟨rfl, h'⟩ | ⟨rfl, h'⟩ <;> first | rfl | exact absurd h' (by decide)
  rw [e] at h
  exact h

end Verif.Props
