import Verif.Lemmas.OutputMem
import Verif.Lemmas.Session
import Verif.Lemmas.IterShape
import Verif.Spec.Output

/-! Programs with formatters and strings: what they own, and which entries they have. -/

namespace Verif
open Spec

/-! ## Decoded entries -/

/-- What decoding gives. -/
def Formed (m : EntryMem) : Prop := WellFormed m ∨ Typeless m

theorem complete_of {m : EntryMem} (h : WellFormed m) : Complete m := ⟨h.name, h.bailiwick, h.source⟩

theorem yields_valTriplet_form (m : EntryMem) (val : Bytes) :
    Yields (decodeValTripletMem m val) fun r => r.1.name = m.name ∧ r.1.bailiwick = m.bailiwick ∧ r.1.sourceInfo = m.sourceInfo ∧
      r.1.e.eType = m.e.eType ∧ r.1.e.rdatas = m.e.rdatas := by
  unfold decodeValTripletMem
  refine Yields.skip fun _ => (yields_mTry _).bind ?_
  rintro (_ | e) h
  · exact .pure ⟨rfl, rfl, rfl, rfl, rfl⟩
  · refine .pure ⟨rfl, rfl, rfl, ?_⟩
    have h : decodeValTriplet m.e val = .ok e := h
    unfold decodeValTriplet at h
    revert h
    generalize tripletUnpack val = z
    intro h
    cases z with
    | ok a =>
      simp only [Out.ok_bind, Out.ok.injEq] at h
      rw [← h]
      exact ⟨rfl, rfl⟩
    | fail => cases h
    | fault f => cases h

theorem yields_rdatas_form (p : Bytes) : ∀ (m : EntryMem), Yields (decodeRdatasMem m p) fun r =>
    r.1.name = m.name ∧ r.1.bailiwick = m.bailiwick ∧ r.1.e.eType = m.e.eType := by
  induction hn : p.length using Nat.strongRecOn generalizing p with
  | _ n ih =>
    intro m
    unfold decodeRdatasMem
    split
    · exact .pure ⟨rfl, rfl, rfl⟩
    · next hp =>
      refine (yields_mTry _).bind ?_
      rintro (_ | ⟨n', len⟩) h
      · exact .pure ⟨rfl, rfl, rfl⟩
      · dsimp only
        split
        · exact .pure ⟨rfl, rfl, rfl⟩
        split
        · exact .pure ⟨rfl, rfl, rfl⟩
        split
        · exact yields_fault _ _
        · refine Yields.skip fun b => Yields.skip fun _ => ?_
          have hl : (p.drop (n' + len)).length < n := by
            have := List.length_pos_iff.mpr hp
            simp only [List.length_drop]
            omega
          exact ih _ hl _ rfl _

theorem yields_rrset_form (m : EntryMem) (buf : Bytes) : Yields (decodeRrsetMem m buf) fun r =>
    r.2 = true → r.1.name.isSome ∧ r.1.bailiwick.isSome ∧ r.1.e.eType = m.e.eType := by
  unfold decodeRrsetMem
  refine (yields_mTry _).bind ?_
  rintro (_ | ⟨name, ln⟩) h1
  · exact .pure nofun
  refine Yields.skip fun _ => Yields.skip fun b => (yields_mTry _).bind ?_
  rintro (_ | ⟨nt, rrtype⟩) h2
  · exact .pure nofun
  refine (yields_mTry _).bind ?_
  rintro (_ | ⟨bw, lb⟩) h3
  · exact .pure nofun
  refine Yields.skip fun b => (yields_rdatas_form _ _).imp ?_
  rintro ⟨m', b'⟩ ⟨h4, h5, h6⟩ -
  exact ⟨by rw [h4]; rfl, by rw [h5]; rfl, h6⟩

theorem yields_map_form (m : EntryMem) (val : Bytes) : Yields (decodeMapMem m val) fun r =>
    r.name = m.name ∧ r.e.eType = m.e.eType := by
  unfold decodeMapMem
  split
  · exact Yields.skip fun v => Yields.skip fun _ => .pure ⟨rfl, rfl⟩
  · exact .pure ⟨rfl, rfl⟩

theorem yields_rdata_form (m : EntryMem) (buf : Bytes) (hm : m.e.rdatas = []) : Yields (decodeRdataMem m buf) fun r =>
    r.2 = true → r.1.name.isSome ∧ r.1.e.eType = m.e.eType ∧ r.1.e.rdatas.length = 1 := by
  unfold decodeRdataMem
  refine Yields.skip fun _ => ?_
  split
  · exact .pure nofun
  refine (yields_mTry _).bind ?_
  rintro (_ | lo) h1
  · exact .pure nofun
  refine (yields_mTry _).bind ?_
  rintro (_ | hi) h2
  · exact .pure nofun
  dsimp only
  split
  · exact .pure nofun
  refine (yields_mTry _).bind ?_
  rintro (_ | ⟨nt, rrtype⟩) h3
  · exact .pure nofun
  dsimp only
  split
  · exact .pure nofun
  refine (yields_mTry _).bind ?_
  rintro (_ | ⟨name, ln⟩) h4
  · exact .pure nofun
  exact Yields.skip fun b => Yields.skip fun b => Yields.skip fun _ => .pure fun _ => ⟨rfl, rfl, by simp [hm]⟩

/-- An entry that has the parts of its type. -/
private theorem formed_rrset {m : EntryMem} (ht : m.e.eType = tRRSET) (h1 : m.name.isSome) (h2 : m.bailiwick.isSome) : WellFormed m :=
  ⟨fun _ => h1, fun _ => h2, fun h => absurd (ht.symm.trans h) (by decide), fun h => absurd (ht.symm.trans h) (by decide)⟩

private theorem formed_rdata {m : EntryMem} (ht : m.e.eType = tRDATA) (h1 : m.name.isSome) (h2 : m.e.rdatas.length = 1) : WellFormed m :=
  ⟨fun _ => h1, fun h => absurd (ht.symm.trans h) (by decide), fun h => absurd (ht.symm.trans h) (by decide), fun _ => h2⟩

private theorem formed_name {m : EntryMem} (ht : m.e.eType = tRRSET_NAME_FWD ∨ m.e.eType = tRDATA_NAME_REV) (h1 : m.name.isSome) :
    WellFormed m := by
  refine ⟨fun _ => h1, fun h => ?_, fun h => ?_, fun h => ?_⟩ <;> rw [h] at ht <;> exact absurd ht (by decide)

private theorem formed_source {m : EntryMem} (ht : m.e.eType = tSOURCE_INFO) (h1 : m.sourceInfo.isSome ∧ m.e.sourceInfo.isSome) :
    WellFormed m := by
  refine ⟨fun h => ?_, fun h => ?_, fun _ => h1, fun h => ?_⟩
  · exfalso
    rw [ht] at h
    exact absurd h (by decide)
  all_goals rw [h] at ht; exact absurd ht (by decide)

private theorem formed_other {m : EntryMem} (ht : m.e.eType = tTIME_RANGE ∨ m.e.eType = tVERSION) : WellFormed m := by
  refine ⟨fun h => ?_, fun h => ?_, fun h => ?_, fun h => ?_⟩
  · exfalso
    rcases ht with ht | ht <;> rw [ht] at h <;> exact absurd h (by decide)
  all_goals rw [h] at ht; exact absurd ht (by decide)

theorem decode_eType {e e' : Entry} {buf val : Bytes} :
    (decodeTimeRange e val = .ok e' → e'.eType = e.eType) ∧ (decodeVersion e buf val = .ok e' → e'.eType = e.eType) := by
  constructor
  · unfold decodeTimeRange
    intro h
    revert h
    generalize pairUnpack val = z
    intro h
    cases z <;> cases h
    rfl
  · unfold decodeVersion
    intro h
    split at h
    · split at h
      · cases h
      · revert h
        generalize varintDecode32 val = z
        intro h
        rcases z with ⟨n, v⟩ | _ | _
        · simp only [Out.ok_bind] at h
          split at h
          · cases h
            rfl
          · cases h
        · cases h
        · cases h
    · cases h

theorem yields_kind_form (p : Nat) (v : VecMem) (t : Nat) (buf val : Bytes) :
    Yields (decodeKindMem { self := p, vec := v } t buf val) fun r => r.2 = true → WellFormed r.1 ∨ (Typeless r.1 ∧ t ∉ knownTypes) := by
  unfold decodeKindMem
  dsimp only
  split
  · refine (yields_rrset_form _ _).bind ?_
    rintro ⟨m, ok⟩ h
    cases ok with
    | false => exact .pure nofun
    | true =>
      obtain ⟨h1, h2, h3⟩ := h rfl
      refine (yields_valTriplet_form m val).imp ?_
      rintro r ⟨k1, k2, k3, k4, k5⟩ -
      exact .inl (formed_rrset (k4.trans h3) (by rw [k1]; exact h1) (by rw [k2]; exact h2))
  split
  · unfold decodeRrsetNameFwdMem
    refine Yields.skip fun _ => Yields.skip fun b => (yields_map_form _ _).bind ?_
    rintro m ⟨h1, h2⟩
    exact .pure fun _ => .inl (formed_name (.inl h2) (by rw [h1]; rfl))
  split
  · refine (yields_rdata_form _ _ rfl).bind ?_
    rintro ⟨m, ok⟩ h
    cases ok with
    | false => exact .pure nofun
    | true =>
      obtain ⟨h1, h2, h3⟩ := h rfl
      refine (yields_valTriplet_form m val).imp ?_
      rintro r ⟨k1, k2, k3, k4, k5⟩ -
      exact .inl (formed_rdata (k4.trans h2) (by rw [k1]; exact h1) (by rw [k5]; exact h3))
  split
  · unfold decodeRdataNameRevMem
    refine Yields.skip fun _ => (yields_mTry _).bind ?_
    rintro (_ | rev) h
    · exact Yields.skip fun b => .pure nofun
    · refine Yields.skip fun b => (yields_map_form _ _).bind ?_
      rintro m ⟨h1, h2⟩
      exact .pure fun _ => .inl (formed_name (.inr h2) (by rw [h1]; rfl))
  split
  · unfold decodeTimeRangeMem
    refine Yields.skip fun _ => (yields_mTry _).bind ?_
    rintro (_ | e) h
    · exact .pure nofun
    · exact .pure fun _ => .inl (formed_other (.inl ((decode_eType (buf := [])).1 h)))
  split
  · unfold decodeSourceInfoMem
    refine Yields.skip fun _ => Yields.skip fun v => Yields.skip fun _ => .pure fun _ => ?_
    exact .inl (formed_source rfl ⟨rfl, rfl⟩)
  split
  · unfold decodeVersionMem
    refine Yields.skip fun _ => (yields_mTry _).bind ?_
    rintro (_ | e) h
    · exact .pure nofun
    · exact .pure fun _ => .inl (formed_other (.inr (decode_eType.2 h)))
  · next h1 h2 h3 h4 h5 h6 h7 =>
    refine .pure fun _ => .inr ⟨⟨rfl, rfl, rfl⟩, ?_⟩
    simp only [knownTypes, List.mem_cons, List.not_mem_nil, or_false, not_or]
    exact ⟨h1, h2, h3, h4, h6, h5, h7⟩

theorem yields_destroy (m : Option EntryMem) : Yields (entryDestroyMem m) fun r => r = none := by
  unfold entryDestroyMem
  cases m with
  | none => exact .pure rfl
  | some m =>
    exact Yields.skip fun _ => Yields.skip fun _ => Yields.skip fun _ => Yields.skip fun _ => Yields.skip fun _ =>
      Yields.skip fun _ => Yields.skip fun _ => Yields.skip fun _ => Yields.skip fun _ => .pure rfl

theorem yields_decode_form (key val : Bytes) : Yields (entryDecodeMem key val) fun r => ∀ m, r = some m →
    WellFormed m ∨ (Typeless m ∧ ∀ t, key.head? = some t → t.toNat ∉ knownTypes) := by
  cases key with
  | nil => exact .pure nofun
  | cons t buf =>
    unfold entryDecodeMem
    refine Yields.skip fun p => Yields.skip fun v => (yields_kind_form _ _ _ _ _).bind ?_
    rintro ⟨m, ok⟩ h
    cases ok with
    | true =>
      refine .pure ?_
      intro m' e
      cases e
      refine (h rfl).imp id fun h => ⟨h.1, ?_⟩
      intro t' ht
      cases ht
      exact h.2
    | false =>
      show Yields (entryDestroyMem (some m)) _
      refine (yields_destroy _).imp ?_
      intro r e m' e'
      rw [e] at e'
      cases e'

theorem yields_readerSteps_form (o : Heap → Bool) (p : Nat) (it : IterMem) (kvs : List KV) :
    Yields (readerStepsMem o p it kvs) fun r => ∀ m, r.2 = some m → Formed m := by
  induction kvs generalizing it with
  | nil => exact Yields.skip fun _ => Yields.skip fun _ => .pure nofun
  | cons kv kvs ih =>
    unfold readerStepsMem
    refine Yields.skip fun _ => Yields.skip fun it' => ?_
    split
    · exact .pure nofun
    · refine (yields_decode_form _ _).bind ?_
      rintro (_ | e) h
      · exact ih it'
      · exact .pure fun m hm => (h m hm).imp id (·.1)

theorem yields_qAct_form (o : Heap → Bool) (it : QIterMem) (a : QAct) :
    Yields (qActMem o it a) fun r => ∀ m, r.2 = some m → Formed m := by
  unfold qActMem
  cases a with
  | step a => exact Yields.skip fun _ => .pure nofun
  | index a => exact Yields.skip fun _ => .pure nofun
  | scratch => exact Yields.skip fun _ => .pure nofun
  | look n =>
    dsimp only
    split
    · exact Yields.skip fun _ => Yields.skip fun _ => .pure nofun
    · exact .pure nofun
  | done =>
    dsimp only
    split
    · exact Yields.skip fun _ => .pure nofun
    · exact .pure nofun
  | deliver k v => exact (yields_decode_form k v).bind fun e h => .pure fun m hm => (h m hm).imp id (·.1)

theorem yields_qActs_form (o : Heap → Bool) (it : QIterMem) (as : List QAct) :
    Yields (qActsMem o it as) fun r => ∀ m, r.2 = some m → Formed m := by
  induction as generalizing it with
  | nil => exact .pure nofun
  | cons a as ih =>
    unfold qActsMem
    refine Yields.skip fun _ => (yields_qAct_form _ _ _).bind ?_
    rintro ⟨it', _ | e⟩ h
    · exact ih it'
    · exact .pure h

theorem yields_anyNext_form (o : Heap → Bool) (c : Course) (it : Option AnyIter) :
    Yields (anyNextMem o c it) fun r => ∀ m, r.2 = some m → Formed m := by
  unfold anyNextMem
  rcases it with _ | d | ⟨u, p, it⟩
  · exact .pure nofun
  · unfold iterNextMem
    exact Yields.bind (P := fun r => ∀ m, r.2 = some m → Formed m)
      (Yields.skip fun _ => (yields_qActs_form _ _ _).bind fun r h => .pure h) fun r h => .pure h
  · exact Yields.skip fun _ => (yields_readerSteps_form _ _ _ _).bind fun r h => .pure h

/-- All entries of a program are such entries. -/
def AllFormed (s : Session) : Prop := ∀ m, some m ∈ s.entries → Formed m

theorem yields_op_form (A : Arith) (L : Libs) {s : Session} (h : AllFormed s) (o : Op) :
    Yields (opMem A L s o) AllFormed := by
  unfold opMem
  cases o with
  | newQuery t => exact Yields.skip fun _ => .pure h
  | call q c =>
    dsimp only
    split
    · exact yields_fault _ _
    · exact Yields.skip fun _ => .pure h
  | destroyQuery q => exact Yields.skip fun _ => .pure h
  | newReader src => exact Yields.skip fun _ => .pure h
  | newSetfile => exact Yields.skip fun _ => .pure h
  | reload r =>
    dsimp only
    split
    · exact yields_fault _ _
    · exact Yields.skip fun _ => .pure h
  | destroyReader r => exact Yields.skip fun _ => .pure h
  | iterate r o =>
    dsimp only
    split
    · exact yields_fault _ _
    · exact Yields.skip fun _ => .pure h
  | query r q o fs =>
    dsimp only
    split
    · exact Yields.skip fun _ => .pure h
    · exact yields_fault _ _
  | next i o c =>
    dsimp only
    split
    · exact .pure h
    · refine (yields_anyNext_form _ _ _).bind ?_
      rintro ⟨p, e⟩ he
      refine .pure ?_
      intro m hm
      rcases List.mem_append.1 hm with hm | hm
      · exact h m hm
      · simp only [List.mem_singleton] at hm
        exact he m hm.symm
  | count i =>
    dsimp only
    split
    · exact .pure h
    · exact Yields.skip fun _ => .pure h
  | destroyIter i =>
    dsimp only
    split
    · exact .pure h
    · exact Yields.skip fun _ => .pure h
  | read e =>
    dsimp only
    split
    · exact yields_fault _ _
    · exact Yields.skip fun _ => .pure h
  | destroyEntry e =>
    refine (yields_destroy _).bind ?_
    rintro _ rfl
    refine .pure ?_
    intro m hm
    rcases mem_set_cases hm with h' | h'
    · cases h'
    · exact h m h'

theorem Safe.with {α : Type} {F : Fault → Prop} {x : Mem α} {R : List (Nat × Bytes)} {Q : α → List (Nat × Bytes) → Prop}
    {P : α → Prop} (h : Safe F x R Q) (hy : Yields x P) : Safe F x R fun a R' => Q a R' ∧ P a := by
  intro k H
  rcases h k H with ⟨a, h', R', e, H', q⟩ | hf
  · exact .inl ⟨a, h', R', e, H', q, hy _ _ _ e⟩
  · exact .inr hf

/-! ## The strings -/

theorem fault_bind {α β : Type} (t : Fault) (k : α → Mem β) : ((mPure (.fault t) : Mem α) >>= k) = mPure (.fault t) := rfl

section
variable {m : EntryMem} {l : List (Nat × Bytes)}

theorem typeless_text (hm : Among m l) (hc : Typeless m) (gmtime : Int → Option Tm) (L : Locale) (w : Wdns) (unixDates : Bool) :
    Renders l (entryToTextMem gmtime L w unixDates m) (.fault .nullDeref) := by
  refine renders_of fun n hn => ⟨fun _ => .fault .nullDeref, ?_, rfl⟩
  have hs := seen_of_own hm.length hm.nodup hm.own hn
  unfold textKindMem
  simp only [if_pos hc.1]
  unfold textRrsetMem
  rw [hc.2.2]
  exact hs.self.fmt (Fmt.fault _)

theorem typeless_json (hm : Among m l) (hc : Typeless m) (numbuf : Bytes) (gmtime : Int → Option Tm) (w : Wdns) (f : Formatter) :
    Renders l (entryToJsonMem numbuf gmtime w f m) (.fault .nullDeref) := by
  refine renders_of fun n hn => ⟨fun _ => .fault .nullDeref, ?_, rfl⟩
  have hs := seen_of_own hm.length hm.nodup hm.own hn
  unfold jsonBodyMem
  dsimp only
  simp only [if_pos (Or.inl hc.1 : m.e.eType = tRRSET ∨ m.e.eType = tRDATA)]
  unfold jsonCommonMem
  rw [hc.2.1]
  exact (((framed_new hn).2.2.1.add [123]).bind fun _ => hs.self.fmt (Fmt.fault _)).congr fun b => rfl

theorem mild_names {w : Wdns} (hw : PlainNames w) (n : Bytes) : Mild (w.domainToStr n) := by
  rcases hw n with ⟨s, e⟩ | e | e <;> rw [e]
  · exact .ok _
  · exact ⟨nofun, .oobRead⟩
  · exact ⟨nofun, .abort⟩

theorem mild_json {w : Wdns} (hw : PlainNames w) (numbuf : Bytes) (gmtime : Int → Option Tm) (f : Formatter)
    (hc : WellFormed m) : Mild (entryToJsonFmt numbuf gmtime w f m.e) := by
  rw [entryToJsonFmt_eq]
  refine Mild.bind ?_ fun b => Mild.bind ?_ fun _ => .ok _
  · split
    · exact mild_common (mild_names hw) _ _ _ _ _
    · exact .ok _
  · exact mild_kind (mild_names hw) numbuf gmtime f m.e b (fun h => (hc.source h).2) fun hu => hu.2 (hc.record hu.1)

theorem mild_text {w : Wdns} (hw : PlainNames w) (gmtime : Int → Option Tm) (L : Locale) (unixDates : Bool)
    (hc : WellFormed m) : Mild (entryToTextFmt gmtime L w unixDates m.e) := by
  refine ⟨?_, tame_text (mild_names hw) _ _ _ _ fun h => (hc.source h).2⟩
  have hw' := (mild_names hw)
  have hb : ∀ {α β : Type} {x : Out α} {g : α → Out β}, Mild x → (∀ a, g a ≠ .fail) → (x >>= g) ≠ .fail := by
    intro α β x g hx hg
    cases x with
    | ok a => exact hg a
    | fail => exact absurd rfl hx.1
    | fault t => nofun
  unfold entryToTextFmt
  dsimp only
  split
  · unfold textRrset
    dsimp only
    exact hb (hw' _) fun _ => hb (mild_uint64 _ _ _) fun _ => hb (mild_timeText _ _ _ _ _) fun _ =>
      hb (mild_timeText _ _ _ _ _) fun _ => hb (hw' _) fun _ => nofun
  split
  · next h =>
    obtain ⟨d, hd⟩ := List.length_eq_one_iff.1 (hc.record h)
    unfold textRdata
    rw [hd]
    exact hb (hw' _) fun _ => nofun
  split
  · exact hb (hw' _) fun _ => nofun
  split
  · exact hb (hw' _) fun _ => nofun
  split
  · exact hb (mild_timeText _ _ _ _ _) fun _ => hb (mild_timeText _ _ _ _ _) fun _ => nofun
  split
  · next h =>
    obtain ⟨s, hs⟩ := Option.isSome_iff_exists.1 (hc.source h).2
    unfold textSource
    rw [hs]
    nofun
  split
  · nofun
  · nofun

end

/-! ## What programs own -/

/-- The block of a formatter. -/
def fblk : Option FormatterMem → List (Nat × Bytes)
  | none => []
  | some f => [(f.self, [])]

/-- The block of a string with its contents. -/
def sblk (x : Option Nat × Bytes) : List (Nat × Bytes) := blk x.1 x.2

/-- The pointers of a program and the blocks, the strings with their contents. -/
structure Held (ext : List Nat) (base : List (Nat × Bytes)) (C : Prop) (gs : List (Option Nat × Bytes)) (s : Client)
    (R : List (Nat × Bytes)) : Prop where
  kept : ext ⊆ ids base
  objects : Inv ext (s.formatters.flatMap fblk ++ (gs.flatMap sblk ++ base)) C s.objects R
  strings : gs.map Prod.fst = s.strings
  formed : AllFormed s.objects

theorem Inv.split {ext : List Nat} {base : List (Nat × Bytes)} {C : Prop} {s : Session} {R : List (Nat × Bytes)}
    (h : Inv ext base C s R) :
    ∃ X, R.Perm (X ++ base) ∧ ∀ base' R', ext ⊆ ids base' → R'.Perm (X ++ base') → Inv ext base' C s R' := by
  obtain ⟨gs, K, hg, hK, hp⟩ := h.own
  refine ⟨gs.flatMap qblk ++ (s.readers.flatMap rblk ++ (s.iters.flatMap tblk ++ (s.entries.flatMap eblk ++ zs K))),
    hp.trans (by blocks), fun base' R' hk hp' => ⟨hk, ⟨gs, K, hg, hK, hp'.trans (by blocks)⟩, h.readers, h.iters, h.entries⟩⟩

section
variable {ext : List Nat} {base : List (Nat × Bytes)} {C : Prop} {gs : List (Option Nat × Bytes)} {s : Client}
  {R : List (Nat × Bytes)} {A : Arith} {L : Libs} {E : Render}

theorem Held.kept' (h : Held ext base C gs s R) (Y : List (Nat × Bytes)) : ext ⊆ ids (Y ++ base) := by
  intro x hx
  rw [ids_append]
  exact List.mem_append_right _ (h.kept hx)

/-- Other formatters and strings. -/
theorem Held.swap (h : Held ext base C gs s R) {fs : List (Option FormatterMem)} {gs' : List (Option Nat × Bytes)}
    {ss : List (Option Nat)} {R' Y Z : List (Nat × Bytes)} (hs : gs'.map Prod.fst = ss)
    (h1 : (Y ++ R').Perm (Z ++ R))
    (h2 : (Y ++ (fs.flatMap fblk ++ (gs'.flatMap sblk ++ base))).Perm
      (Z ++ (s.formatters.flatMap fblk ++ (gs.flatMap sblk ++ base)))) :
    Held ext base C gs' { s with formatters := fs, strings := ss } R' := by
  obtain ⟨X, hX, hre⟩ := h.objects.split
  refine ⟨h.kept, hre _ _ ?_ ?_, hs, h.formed⟩
  · rw [← List.append_assoc]
    exact h.kept' _
  · refine (List.perm_append_left_iff Y).1 (h1.trans ?_)
    refine ((hX.append_left Z).trans ?_).trans (show List.Perm (X ++ (Y ++ (fs.flatMap fblk ++ (gs'.flatMap sblk ++ base)))) _ by blocks)
    refine .trans (show List.Perm _ (X ++ (Z ++ (s.formatters.flatMap fblk ++ (gs.flatMap sblk ++ base)))) by blocks) ?_
    exact h2.symm.append_left X

/-! ## Calls -/

theorem safe_renders (h : Held ext base C gs s R) {x : Mem (Option Nat)} {o : Out Bytes}
    (hx : ∀ hp, Owned hp R → Renders hp.live x o) (ho : Tame o) :
    Safe Gentle (x >>= fun p => pure { s with strings := s.strings ++ [p] }) R fun s' R' =>
      ∃ g, Held ext base C (gs ++ [g]) s' R' ∧ s' = { s with strings := s.strings ++ [g.1] } ∧
        match o with
        | .ok t => g.1.isSome ∧ g.2 = t ++ [0]
        | _ => g.1 = none := by
  intro hp H
  have h1 := hx hp H hp.next H.sane.below
  cases o with
  | ok t =>
    obtain ⟨k, n', hk, hn, e⟩ := h1
    refine .inl ⟨{ s with strings := s.strings ++ [some k] }, ⟨n', (k, t ++ [0]) :: hp.live⟩, (k, t ++ [0]) :: R, ?_, ?_,
      (some k, t ++ [0]), ?_, rfl, rfl, rfl⟩
    · rw [mem_bind_eq]
      have e' : x hp = _ := e
      rw [e']
      rfl
    · refine ⟨⟨?_, ?_⟩, H.perm.cons _⟩
      · simp only [List.map_cons, List.nodup_cons]
        refine ⟨fun hm => ?_, H.sane.nodup⟩
        obtain ⟨y, hy, e⟩ := List.mem_map.1 hm
        have := H.sane.below y hy
        omega
      · intro y hy
        rcases List.mem_cons.1 hy with rfl | hy
        · exact hn
        · have := H.sane.below y hy
          simp only
          omega
    · refine h.swap (Y := []) (Z := [(k, t ++ [0])]) (fs := s.formatters) ?_ (List.Perm.refl _) ?_
      · rw [List.map_append, h.strings]; rfl
      · simp only [List.flatMap_append, List.flatMap_cons, List.flatMap_nil, List.append_nil, sblk, blk]
        blocks
  | fail =>
    obtain ⟨n', hn, e⟩ := h1
    refine .inl ⟨{ s with strings := s.strings ++ [none] }, ⟨n', hp.live⟩, R, ?_, ?_, (none, []), ?_, rfl, rfl⟩
    · rw [mem_bind_eq]
      have e' : x hp = _ := e
      rw [e']
      rfl
    · refine ⟨⟨H.sane.nodup, ?_⟩, H.perm⟩
      intro y hy
      have := H.sane.below y hy
      simp only
      omega
    · refine h.swap (Y := []) (Z := []) (fs := s.formatters) ?_ (List.Perm.refl _) ?_
      · rw [List.map_append, h.strings]; rfl
      · simp only [List.flatMap_append, List.flatMap_cons, List.flatMap_nil, List.append_nil, sblk, blk]
        blocks
  | fault t =>
    refine .inr ⟨t, ?_, ho.gentle rfl⟩
    rw [mem_bind_eq]
    have e' : x hp = _ := h1
    rw [e']

theorem answers_of {hp : Heap} {x : Mem (Option Nat)} {o : Out Bytes} (H : Owned hp R) (hx : Renders hp.live x o)
    (ho : o ≠ .fail) : Answers s hp (x >>= fun p => pure { s with strings := s.strings ++ [p] }) o := by
  have h1 := hx hp.next H.sane.below
  cases o with
  | ok t =>
    obtain ⟨k, n', hk, hn, e⟩ := h1
    refine ⟨k, ⟨n', (k, t ++ [0]) :: hp.live⟩, ?_, rfl, fun hm => ?_⟩
    · rw [mem_bind_eq]
      have e' : x hp = _ := e
      rw [e']
      rfl
    · obtain ⟨y, hy, e⟩ := List.mem_map.1 hm
      have := H.sane.below y hy
      omega
  | fail => exact absurd rfl ho
  | fault t =>
    show _ = _
    rw [mem_bind_eq]
    have e' : x hp = _ := h1
    rw [e']

theorem among_of (h : Held ext base C gs s R) {e : Nat} {m : EntryMem} (hm : pointer s.objects.entries e = some m) {hp : Heap}
    (H : Owned hp R) : Among m hp.live := by
  obtain ⟨hl, ho⟩ := entry_own h.objects hm
  exact ⟨hl, H.sane.nodup, fun b hb => H.perm.mem_iff.2 (ho b hb)⟩

/-- What the output functions answer: the text, except for entries of unknown types. -/
def answer (m : EntryMem) (x : Out Bytes) : Out Bytes :=
  if m.e.eType = tRRSET ∧ m.name = none ∧ m.bailiwick = none then .fault .nullDeref else x

theorem answer_typeless {m : EntryMem} (h : Typeless m) (x : Out Bytes) : answer m x = .fault .nullDeref := if_pos h

theorem answer_formed {m : EntryMem} (h : WellFormed m) (x : Out Bytes) : answer m x = x := by
  refine if_neg fun hb => ?_
  have := h.bailiwick hb.1
  rw [hb.2.2] at this
  cases this

theorem tame_answer {m : EntryMem} {x : Out Bytes} (h : Formed m) (hx : WellFormed m → Mild x) : Tame (answer m x) := by
  rcases h with h | h
  · rw [answer_formed h]; exact (hx h).2
  · rw [answer_typeless h]; exact .nullDeref

theorem renders_entry (h : Held ext base C gs s R) {e : Nat} {m : EntryMem} (hm : pointer s.objects.entries e = some m)
    (hw : PlainNames E.wdns) :
    (∀ b hp, Owned hp R → Renders hp.live (entryToTextMem E.gmtime E.locale E.wdns b m)
      (answer m (entryToTextFmt E.gmtime E.locale E.wdns b m.e))) ∧
    ∀ f hp, Owned hp R → Renders hp.live (entryToJsonMem E.numbuf E.gmtime E.wdns f m)
      (answer m (entryToJsonFmt E.numbuf E.gmtime E.wdns f m.e)) := by
  have hf := h.formed m (mem_of_get (pointer_some hm))
  constructor
  · intro b hp H
    rcases hf with hf | hf
    · rw [answer_formed hf]
      exact renders_text (among_of h hm H) (complete_of hf) _ _ (mild_names hw) _
    · rw [answer_typeless hf]
      exact typeless_text (among_of h hm H) hf _ _ _ _
  · intro f hp H
    rcases hf with hf | hf
    · rw [answer_formed hf]
      exact renders_json (among_of h hm H) (complete_of hf) _ _ (mild_names hw) _
    · rw [answer_typeless hf]
      exact typeless_json (among_of h hm H) hf _ _ _ _

theorem renders_touch {p : Nat} {x : Mem (Option Nat)} {o : Out Bytes} {hp : Heap} (hR : p ∈ hp.live.map Prod.fst)
    (hn : (hp.live.map Prod.fst).Nodup) (h : Renders hp.live x o) : Renders hp.live (mTouch p >>= fun _ => x) o := by
  intro n hn'
  have := h n hn'
  have ht : mTouch p ⟨n, hp.live⟩ = .ok ((), ⟨n, hp.live⟩) := by
    obtain ⟨⟨k, b⟩, hb, rfl⟩ := List.mem_map.1 hR
    show (mLoad k ⟨n, hp.live⟩ >>= fun x => Out.ok ((), x.2)) = _
    rw [mLoad, lookup_of_mem hn hb]
    rfl
  rw [mem_bind_eq, ht]
  exact this

theorem formatter_live (h : Held ext base C gs s R) {f : Nat} {m : FormatterMem} (hm : pointer s.formatters f = some m) :
    m.self ∈ ids R := by
  obtain ⟨X, hX, -⟩ := h.objects.split
  refine ids_perm hX.symm ?_
  simp only [ids_append, List.mem_append]
  refine .inr (.inl (ids_perm (flatMap_pull fblk (pointer_some hm)).symm ?_))
  simp [fblk]

theorem renders_format (h : Held ext base C gs s R) {e f : Nat} {m : EntryMem} {g : FormatterMem}
    (hm : pointer s.objects.entries e = some m) (hg : pointer s.formatters f = some g)
    (hw : PlainNames E.wdns) (hp : Heap) (H : Owned hp R) :
    Renders hp.live (entryFormatMem E g m) (answer m (entryFormat E.numbuf E.gmtime E.locale E.wdns g.f m.e)) := by
  unfold entryFormatMem entryFormat
  refine renders_touch ((H.perm.map Prod.fst).mem_iff.2 (formatter_live h hg)) H.sane.nodup ?_
  split
  · exact (renders_entry h hm hw).2 _ hp H
  · exact (renders_entry h hm hw).1 _ hp H

theorem mild_formatted {m : EntryMem} (hw : PlainNames E.wdns) (f : Formatter) (hc : WellFormed m) : Mild (entryFormat E.numbuf E.gmtime E.locale E.wdns f m.e) := by
  unfold entryFormat
  split
  · exact mild_json hw _ _ _ hc
  · exact mild_text hw _ _ _ hc

/-- The contents of the strings. -/
abbrev textsOf (gs : List (Option Nat × Bytes)) : List Bytes := gs.map Prod.snd

theorem does_newFormatter (h : Held ext base C gs s R) :
    Does (callMem A L E s .newFormatter) R fun s' R' => Held ext base C gs s' R' := by
  unfold callMem formatterInitMem
  refine Does.bind (Q := fun f R' => R' = (f.self, []) :: R) ?_ ?_
  · refine (does_alloc _ _).bind ?_
    rintro p R' ⟨e, -⟩
    rw [e]
    exact .pure rfl
  · rintro f R' rfl
    refine .pure (h.swap (Y := []) (Z := [(f.self, [])]) (ss := s.strings) h.strings (List.Perm.refl _) ?_)
    simp only [List.flatMap_append, List.flatMap_cons, List.flatMap_nil, List.append_nil, fblk]
    blocks

theorem safe_setFormatter (h : Held ext base C gs s R) (f : Nat) (c : FormatterCall) :
    Safe Gentle (callMem A L E s (.setFormatter f c)) R fun s' R' => Held ext base C gs s' R' := by
  unfold callMem
  dsimp only
  cases hm : pointer s.formatters f with
  | none =>
    unfold formatterCallMem
    exact fun _ _ => .inr ⟨.abort, rfl, nofun, nofun⟩
  | some m =>
    refine Does.safe (Does.bind (Q := fun a R' => a = some { m with f := m.f.call c } ∧ R' = R) ?_ ?_)
    · unfold formatterCallMem
      refine (does_touch (formatter_live h hm)).bind ?_
      rintro _ _ rfl
      exact .pure ⟨rfl, rfl⟩
    · rintro _ _ ⟨rfl, rfl⟩
      refine .pure (h.swap (Y := []) (Z := []) (ss := s.strings) h.strings (List.Perm.refl _) ?_)
      exact ((flatMap_put fblk (pointer_some hm) (some { m with f := m.f.call c })).trans
        (show List.Perm (fblk (some { m with f := m.f.call c }) ++ _) _ from (flatMap_pull fblk (pointer_some hm)).symm)).append_right _

theorem does_destroyFormatter (h : Held ext base C gs s R) (f : Nat) :
    Does (callMem A L E s (.destroyFormatter f)) R fun s' R' =>
      s' = { s with formatters := s.formatters.set f none } ∧ Held ext base C gs s' R' := by
  unfold callMem
  dsimp only
  cases hm : pointer s.formatters f with
  | none =>
    refine Does.bind (Q := fun a R' => a = none ∧ R' = R) (.pure ⟨rfl, rfl⟩) ?_
    rintro _ _ ⟨rfl, rfl⟩
    refine .pure ⟨rfl, ?_⟩
    rw [set_null hm]
    exact h
  | some m =>
    obtain ⟨X, hX, -⟩ := h.objects.split
    have hp : R.Perm ((m.self, []) :: (X ++ ((s.formatters.eraseIdx f).flatMap fblk ++ (gs.flatMap sblk ++ base)))) := by
      refine (hX.trans (((flatMap_pull fblk (pointer_some hm)).append_right _).append_left _)).trans ?_
      simp only [fblk]
      blocks
    refine Does.bind (Q := fun a R' => a = none ∧
      R' = X ++ ((s.formatters.eraseIdx f).flatMap fblk ++ (gs.flatMap sblk ++ base))) ?_ ?_
    · unfold formatterDestroyMem
      refine .perm hp ((does_free _ _ _).bind ?_)
      rintro _ _ rfl
      exact .pure ⟨rfl, rfl⟩
    · rintro _ _ ⟨rfl, rfl⟩
      refine .pure ⟨rfl, h.swap (Y := [(m.self, [])]) (Z := []) (ss := s.strings) h.strings hp.symm ?_⟩
      refine .trans (((flatMap_put fblk (pointer_some hm) none).append_right _).append_left _) ?_
      refine .trans ?_ ((flatMap_pull fblk (pointer_some hm)).symm.append_right _)
      simp only [fblk]
      blocks

theorem string_get (h : Held ext base C gs s R) {i p : Nat} (hm : pointer s.strings i = some p) :
    ∃ t, gs[i]? = some (some p, t) ∧ (p, t) ∈ R := by
  have h' := pointer_some hm
  rw [← h.strings, List.getElem?_map] at h'
  cases hl : gs[i]? with
  | none => rw [hl] at h'; cases h'
  | some x =>
    rw [hl] at h'
    obtain ⟨q, t⟩ := x
    simp only [Option.map_some, Option.some.injEq] at h'
    subst h'
    refine ⟨t, rfl, ?_⟩
    obtain ⟨X, hX, -⟩ := h.objects.split
    refine hX.mem_iff.2 ?_
    simp only [List.mem_append]
    refine .inr (.inr (.inl ((flatMap_pull sblk hl).mem_iff.2 ?_)))
    simp [sblk, blk]

theorem does_freeString (h : Held ext base C gs s R) (i : Nat) :
    Does (callMem A L E s (.freeString i)) R fun s' R' => s' = { s with strings := s.strings.set i none } ∧
      ∃ gs', Held ext base C gs' s' R' ∧ textsOf gs' = textsOf gs := by
  unfold callMem
  dsimp only
  cases hm : pointer s.strings i with
  | none =>
    refine (does_free_none _).bind ?_
    rintro _ _ rfl
    refine .pure ⟨rfl, gs, ?_, rfl⟩
    rw [set_null hm]
    exact h
  | some p =>
    obtain ⟨t, ht, -⟩ := string_get h hm
    obtain ⟨X, hX, -⟩ := h.objects.split
    have hp : R.Perm ((p, t) :: (X ++ (s.formatters.flatMap fblk ++ ((gs.eraseIdx i).flatMap sblk ++ base)))) := by
      refine (hX.trans ((((flatMap_pull sblk ht).append_right _).append_left _).append_left _)).trans ?_
      simp only [sblk, blk]
      blocks
    refine .perm hp ((does_free _ _ _).bind ?_)
    rintro _ _ rfl
    refine .pure ⟨rfl, gs.set i (none, t), h.swap (Y := [(p, t)]) (Z := []) (fs := s.formatters) ?_ hp.symm ?_, ?_⟩
    · rw [List.map_set, h.strings]
    · refine .trans ((((flatMap_put sblk ht (none, t)).append_right _).append_left _).append_left _) ?_
      refine .trans ?_ (((flatMap_pull sblk ht).symm.append_right _).append_left _)
      simp only [sblk, blk]
      blocks
    · rw [textsOf, List.map_set]
      have hi := (List.getElem?_eq_some_iff.1 ht)
      obtain ⟨hi, e⟩ := hi
      have : (gs.map Prod.snd)[i]'(by simpa using hi) = t := by rw [List.getElem_map, e]
      rw [← this]
      exact List.set_getElem_self _

theorem safe_object (hA : RealShifts A) (h : Held ext base C gs s R) (o : Op) (ho : allowed ext s.objects o = true)
    (hc : C → removal s.objects o = false) :
    Safe Gentle (callMem A L E s (.object o)) R fun s' R' => Held ext base C gs s' R' := by
  unfold callMem
  refine Safe.bind ((safe_op hA h.objects o ho hc).with (yields_op_form A L h.formed o)) ?_
  rintro x R' ⟨h1, h2⟩
  exact Does.safe (.pure ⟨h.kept, h1, h.strings, h2⟩)

theorem safe_call (hA : RealShifts A) (hw : PlainNames E.wdns) (h : Held ext base C gs s R) (c : ClientCall)
    (hc : permitted ext s c = true) (hr : C → callRemoval s c = false) :
    Safe Gentle (callMem A L E s c) R fun s' R' => ∃ gs', Held ext base C gs' s' R' ∧ textsOf gs <+: textsOf gs' := by
  have hsame : ∀ (s' : Client) (R' : List (Nat × Bytes)), Held ext base C gs s' R' →
      ∃ gs', Held ext base C gs' s' R' ∧ textsOf gs <+: textsOf gs' := fun _ _ h => ⟨gs, h, List.prefix_refl _⟩
  have hmore : ∀ g, textsOf gs <+: textsOf (gs ++ [g]) := fun g => by
    show gs.map Prod.snd <+: (gs ++ [g]).map Prod.snd
    rw [List.map_append]
    exact List.prefix_append _ _
  cases c with
  | object o => exact (safe_object hA h o hc hr).weaken (fun _ h => h) hsame
  | newFormatter => exact ((does_newFormatter h).weaken hsame).safe
  | setFormatter f c => exact (safe_setFormatter h f c).weaken (fun _ h => h) hsame
  | destroyFormatter f => exact ((does_destroyFormatter h f).weaken fun s R h => hsame s R h.2).safe
  | text e =>
    unfold callMem
    dsimp only
    cases hm : pointer s.objects.entries e with
    | none => exact safe_fault gentle_null
    | some m =>
      have hf := h.formed m (mem_of_get (pointer_some hm))
      exact (safe_renders h ((renders_entry h hm hw).1 true) (tame_answer hf fun hc => mild_text hw _ _ _ hc)).weaken
        (fun _ h => h) fun s' R' ⟨g, hg, _⟩ => ⟨_, hg, hmore g⟩
  | json e =>
    unfold callMem
    dsimp only
    cases hm : pointer s.objects.entries e with
    | none => exact safe_fault gentle_null
    | some m =>
      have hf := h.formed m (mem_of_get (pointer_some hm))
      exact (safe_renders h ((renders_entry h hm hw).2 _) (tame_answer hf fun hc => mild_json hw _ _ _ hc)).weaken
        (fun _ h => h) fun s' R' ⟨g, hg, _⟩ => ⟨_, hg, hmore g⟩
  | format f e =>
    unfold callMem
    dsimp only
    split
    · exact fun _ _ => .inr ⟨.abort, rfl, nofun, nofun⟩
    · exact safe_fault gentle_null
    · next g m hg hm =>
      have hf := h.formed m (mem_of_get (pointer_some hm))
      exact (safe_renders h (renders_format h hm hg hw) (tame_answer hf fun hc => mild_formatted hw _ hc)).weaken
        (fun _ h => h) fun s' R' ⟨g, hg, _⟩ => ⟨_, hg, hmore g⟩
  | freeString i =>
    refine ((does_freeString h i).weaken ?_).safe
    rintro s' R' ⟨-, gs', h1, h2⟩
    exact ⟨gs', h1, by rw [h2]; exact List.prefix_refl _⟩

theorem safe_calls (hA : RealShifts A) (hw : PlainNames E.wdns) (rule : Client → ClientCall → Bool)
    (hrule : ∀ s c, rule s c = true → permitted ext s c = true)
    (hr : C → ∀ s c, rule s c = true → callRemoval s c = false) (cs : List ClientCall) (h : Held ext base C gs s R) :
    Safe Gentle (callsMem A L E rule s cs) R fun s' R' =>
      ∃ gs', Held ext base C gs' s' R' ∧ textsOf gs <+: textsOf gs' := by
  induction cs generalizing s R gs with
  | nil => exact Does.safe (.pure ⟨gs, h, List.prefix_refl _⟩)
  | cons c cs ih =>
    unfold callsMem
    split
    · next hc =>
      refine Safe.bind (safe_call hA hw h c (hrule _ _ hc) fun k => hr k _ _ hc) ?_
      rintro s' R' ⟨gs', h', hp⟩
      exact (ih h').weaken (fun _ h => h) fun s2 R2 ⟨gs2, h2, hp2⟩ => ⟨gs2, h2, hp.trans hp2⟩
    · exact ih h

/-! ## The end of a program -/

theorem calls_cons (rule : Client → ClientCall → Bool) (s : Client) (c : ClientCall) (cs : List ClientCall) :
    callsMem A L E rule s (c :: cs) =
      if rule s c then callMem A L E s c >>= fun s => callsMem A L E rule s cs else callsMem A L E rule s cs := rfl

theorem calls_append (rule : Client → ClientCall → Bool) (s : Client) (a b : List ClientCall) :
    callsMem A L E rule s (a ++ b) = callsMem A L E rule s a >>= fun s' => callsMem A L E rule s' b := by
  induction a generalizing s with
  | nil => rfl
  | cons o a ih =>
    rw [List.cons_append, calls_cons, calls_cons]
    split
    · rw [mem_bind_assoc]
      congr 1
      funext s'
      exact ih s'
    · exact ih s

theorem calls_objects (s : Client) (os : List Op) :
    callsMem A L E (permitted ext) s (os.map .object) =
      programMem A L (allowed ext) s.objects os >>= fun o => pure { s with objects := o } := by
  induction os generalizing s with
  | nil => rfl
  | cons o os ih =>
    rw [List.map_cons, program_cons]
    unfold callsMem
    show (if allowed ext s.objects o then _ else _) = _
    split
    · rw [show callMem A L E s (.object o) = opMem A L s.objects o >>= fun x => pure { s with objects := x } from rfl,
        mem_bind_assoc, mem_bind_assoc]
      congr 1
      funext x
      exact ih { s with objects := x }
    · exact ih s

theorem does_destroyFormatters (is : List Nat) (h : Held ext base C gs s R) :
    Does (callsMem A L E (permitted ext) s (is.map .destroyFormatter)) R fun s' R' =>
      s' = { s with formatters := nullAll s.formatters is } ∧ Held ext base C gs s' R' := by
  induction is generalizing s R with
  | nil => exact .pure ⟨rfl, h⟩
  | cons i is ih =>
    rw [List.map_cons]
    unfold callsMem
    rw [if_pos (show permitted ext s (.destroyFormatter i) = true from rfl)]
    refine (does_destroyFormatter h i).bind ?_
    rintro s1 R1 ⟨rfl, h1⟩
    exact ih h1

theorem does_freeStrings (is : List Nat) (h : Held ext base C gs s R) :
    Does (callsMem A L E (permitted ext) s (is.map .freeString)) R fun s' R' =>
      s' = { s with strings := nullAll s.strings is } ∧ ∃ gs', Held ext base C gs' s' R' := by
  induction is generalizing s R gs with
  | nil => exact .pure ⟨rfl, gs, h⟩
  | cons i is ih =>
    rw [List.map_cons]
    unfold callsMem
    rw [if_pos (show permitted ext s (.freeString i) = true from rfl)]
    refine (does_freeString h i).bind ?_
    rintro s1 R1 ⟨rfl, gs', h1, -⟩
    exact ih h1

theorem flatMap_nulls {α β : Type} (f : Option α → List β) (hf : f none = []) {l : List (Option α)} (h : ∀ x ∈ l, x = none) :
    l.flatMap f = [] := by
  rw [List.flatMap_eq_nil_iff]
  intro x hx
  rw [h x hx, hf]

theorem Inv.of_null {base : List (Nat × Bytes)} {s : Session} {R : List (Nat × Bytes)} {K : List Nat} (hk : ext ⊆ ids base)
    (hn : AllNull s) (hK : C → K = []) (hp : R.Perm (zs K ++ base)) : Inv ext base C s R := by
  obtain ⟨h1, h2, h3, h4⟩ := hn
  refine ⟨hk, ⟨s.queries.map fun _ => none, K, ?_, hK, ?_⟩, ?_, ?_, ?_⟩
  · rw [List.map_map]
    conv => rhs; rw [← List.map_id s.queries]
    exact List.map_congr_left fun x hx => by rw [h2 x hx]; rfl
  · rw [flatMap_nulls qblk rfl (by simp), flatMap_nulls rblk rfl h3, flatMap_nulls eblk rfl h4]
    have : s.iters.flatMap tblk = [] := by
      rw [List.flatMap_eq_nil_iff]
      intro t ht
      unfold tblk
      rw [h1 t ht]
    rw [this]
    exact hp
  · intro r hr
    cases h3 _ hr
  · intro t ht
    unfold IterFine NoRemoval
    rw [h1 t ht]
    exact ⟨trivial, fun _ _ h => by cases h⟩
  · intro m hm
    cases h4 _ hm

theorem Inv.rest {base : List (Nat × Bytes)} {s : Session} {R : List (Nat × Bytes)} (h : Inv ext base C s R) (hn : AllNull s) :
    ∃ K, (C → K = []) ∧ R.Perm (zs K ++ base) := by
  obtain ⟨h1, h2, h3, h4⟩ := hn
  obtain ⟨gs, K, hg, hK, hp⟩ := h.own
  refine ⟨K, hK, hp.trans ?_⟩
  have hgs : ∀ x ∈ gs, x = none := by
    intro x hx
    have := h2 _ (hg ▸ List.mem_map_of_mem hx)
    cases x with
    | none => rfl
    | some x => cases this
  rw [flatMap_nulls qblk rfl hgs, flatMap_nulls rblk rfl h3, flatMap_nulls eblk rfl h4]
  have : s.iters.flatMap tblk = [] := by
    rw [List.flatMap_eq_nil_iff]
    intro t ht
    unfold tblk
    rw [h1 t ht]
  rw [this]
  exact List.Perm.refl _

theorem does_cleanupAll (h : Held ext base C gs s R) :
    Does (callsMem A L E (permitted ext) s (cleanupAll s)) R fun s' R' => NothingLeft s' ∧
      ∃ K, (C → K = []) ∧ R'.Perm (zs K ++ base) := by
  unfold cleanupAll
  rw [calls_append, calls_objects, mem_bind_assoc]
  refine (does_cleanup h.objects).bind ?_
  rintro o R1 ⟨hn, K, hK, hp⟩
  have h1 : Held ext base C gs { s with objects := o } R1 := by
    refine ⟨h.kept, Inv.of_null (by rw [← List.append_assoc]; exact h.kept' _) hn hK hp, h.strings, ?_⟩
    intro m hm
    cases hn.2.2.2 _ hm
  show Does (callsMem A L E (permitted ext) { s with objects := o } _) R1 _
  rw [calls_append]
  refine (does_destroyFormatters _ h1).bind ?_
  rintro _ R2 ⟨rfl, h2⟩
  refine (does_freeStrings _ h2).weaken ?_
  rintro _ R3 ⟨rfl, gs', h3⟩
  have hf := nullAll_range s.formatters
  have hs := nullAll_range s.strings
  refine ⟨⟨hn, hf, hs⟩, ?_⟩
  obtain ⟨K', hK', hp'⟩ := h3.objects.rest hn
  refine ⟨K', hK', hp'.trans ?_⟩
  rw [flatMap_nulls fblk rfl hf]
  have : gs'.flatMap sblk = [] := by
    rw [List.flatMap_eq_nil_iff]
    intro x hx
    have := hs _ (h3.strings ▸ List.mem_map_of_mem hx)
    unfold sblk
    rw [this]
    rfl
  rw [this]
  exact List.Perm.refl _

theorem Held.empty (h : ext ⊆ ids base) : Held ext base C [] {} base :=
  ⟨h, Inv.empty h, rfl, fun _ h => by cases h⟩

/-- A string stays where it is until it is freed. -/
theorem yields_call_strings {i p : Nat} (hi : pointer s.strings i = some p) (c : ClientCall) (hc : c ≠ .freeString i) :
    Yields (callMem A L E s c) fun s' => pointer s'.strings i = some p := by
  unfold callMem
  cases c with
  | object o => exact Yields.skip fun _ => .pure hi
  | newFormatter => exact Yields.skip fun _ => .pure hi
  | setFormatter f c => exact Yields.skip fun _ => .pure hi
  | destroyFormatter f => exact Yields.skip fun _ => .pure hi
  | text e =>
    dsimp only
    split
    · exact yields_fault _ _
    · exact Yields.skip fun _ => .pure (pointer_append _ hi)
  | json e =>
    dsimp only
    split
    · exact yields_fault _ _
    · exact Yields.skip fun _ => .pure (pointer_append _ hi)
  | format f e =>
    dsimp only
    split
    · exact yields_fault _ _
    · exact yields_fault _ _
    · exact Yields.skip fun _ => .pure (pointer_append _ hi)
  | freeString j =>
    refine Yields.skip fun _ => .pure ?_
    have : j ≠ i := fun e => hc (by rw [e])
    show pointer (s.strings.set j none) i = some p
    rw [pointer_set_ne _ _ this]
    exact hi

theorem yields_calls_strings {i p : Nat} (hi : pointer s.strings i = some p) (rule : Client → ClientCall → Bool)
    (cs : List ClientCall) (hc : ∀ c ∈ cs, c ≠ .freeString i) :
    Yields (callsMem A L E rule s cs) fun s' => pointer s'.strings i = some p := by
  induction cs generalizing s with
  | nil => exact .pure hi
  | cons c cs ih =>
    rw [calls_cons]
    split
    · exact (yields_call_strings hi c (hc c List.mem_cons_self)).bind fun s' h' =>
        ih h' fun c h => hc c (List.mem_cons_of_mem _ h)
    · exact ih hi fun c h => hc c (List.mem_cons_of_mem _ h)

/-! ## Formatters -/

theorem lastSetting_cons {α : Type} (sel : FormatterCall → Option α) (d : α) (c : FormatterCall) (cs : List FormatterCall) :
    lastSetting sel d (c :: cs) = lastSetting sel ((sel c).getD d) cs := by
  unfold lastSetting
  rw [List.filterMap_cons]
  cases sel c with
  | none => rfl
  | some x =>
    simp only [Option.getD_some]
    rw [List.getLast?_cons]
    rfl

theorem configured_cons (f : Formatter) (c : FormatterCall) (cs : List FormatterCall) :
    configured f (c :: cs) = configured (f.call c) cs := by
  unfold configured
  simp only [lastSetting_cons]
  cases c <;> rfl

theorem configured_nil (f : Formatter) : configured f [] = f := rfl

theorem yields_call_formatter {i : Nat} {g : FormatterMem} (hi : pointer s.formatters i = some g) (c : ClientCall)
    (hc : c ≠ .destroyFormatter i) :
    Yields (callMem A L E s c) fun s' => pointer s'.formatters i = some { g with f := configured g.f (settings i [c]) } := by
  have hsame : ∀ c', settings i [c'] = [] → some g = some { g with f := configured g.f (settings i [c']) } := by
    intro c' h
    rw [h, configured_nil]
  unfold callMem
  cases c with
  | object o => exact Yields.skip fun _ => .pure (hi.trans (hsame _ rfl))
  | newFormatter => exact Yields.skip fun _ => .pure ((pointer_append _ hi).trans (hsame _ rfl))
  | setFormatter f c =>
    by_cases hf : f = i
    · subst hf
      dsimp only
      rw [hi]
      unfold formatterCallMem
      refine Yields.bind (P := fun a => a = some { g with f := g.f.call c }) (Yields.skip fun _ => .pure rfl) ?_
      rintro _ rfl
      refine .pure ?_
      show pointer (s.formatters.set f _) f = _
      rw [pointer_set_eq hi]
      simp only [settings, if_pos, configured_cons, configured_nil]
    · refine Yields.skip fun x => .pure ?_
      show pointer (s.formatters.set f x) i = _
      rw [pointer_set_ne _ _ hf, hi]
      exact hsame _ (by simp only [settings, if_neg hf])
  | destroyFormatter f =>
    have hf : f ≠ i := fun e => hc (by rw [e])
    refine Yields.skip fun x => .pure ?_
    show pointer (s.formatters.set f x) i = _
    rw [pointer_set_ne _ _ hf, hi]
    exact hsame _ rfl
  | text e =>
    dsimp only
    split
    · exact yields_fault _ _
    · exact Yields.skip fun _ => .pure (hi.trans (hsame _ rfl))
  | json e =>
    dsimp only
    split
    · exact yields_fault _ _
    · exact Yields.skip fun _ => .pure (hi.trans (hsame _ rfl))
  | format f e =>
    dsimp only
    split
    · exact yields_fault _ _
    · exact yields_fault _ _
    · exact Yields.skip fun _ => .pure (hi.trans (hsame _ rfl))
  | freeString j => exact Yields.skip fun _ => .pure (hi.trans (hsame _ rfl))

theorem settings_cons (i : Nat) (c : ClientCall) (cs : List ClientCall) : settings i (c :: cs) = settings i [c] ++ settings i cs := by
  cases c with
  | setFormatter g c =>
    by_cases hg : g = i
    · simp only [settings, if_pos hg]
      rfl
    · simp only [settings, if_neg hg]
      rfl
  | _ => rfl

theorem configured_append (f : Formatter) (a b : List FormatterCall) : configured f (a ++ b) = configured (configured f a) b := by
  induction a generalizing f with
  | nil => rfl
  | cons c a ih => rw [List.cons_append, configured_cons, configured_cons]; exact ih _

theorem yields_calls_formatter {i : Nat} {g : FormatterMem} (hi : pointer s.formatters i = some g) (cs : List ClientCall)
    (hc : ∀ c ∈ cs, c ≠ .destroyFormatter i) :
    Yields (callsMem A L E (permitted ext) s cs) fun s' =>
      pointer s'.formatters i = some { g with f := configured g.f (settings i cs) } := by
  induction cs generalizing s g with
  | nil => exact .pure hi
  | cons c cs ih =>
    rw [calls_cons]
    split
    · refine (yields_call_formatter hi c (hc c List.mem_cons_self)).bind fun s' h' => ?_
      refine (ih h' fun c h => hc c (List.mem_cons_of_mem _ h)).imp fun s2 h2 => ?_
      rw [h2, settings_cons i c cs, configured_append]
    · next hn =>
      refine (ih hi fun c h => hc c (List.mem_cons_of_mem _ h)).imp fun s2 h2 => ?_
      rw [h2, settings_cons i c cs]
      have : settings i [c] = [] := by
        cases c with
        | setFormatter f c =>
          by_cases hf : f = i
          · subst hf
            exact absurd (by simp [permitted, live, hi]) hn
          · simp only [settings, if_neg hf]
        | _ => rfl
      rw [this]
      rfl

end

end Verif
