import Verif.Spec.Json
import Verif.Lemmas.TextForm
import Verif.Model.TextForm

/-!
# Bytes that do not occur in the text forms of entries
-/

namespace Verif
open Spec

/-- No control bytes before `rest`. -/
def Clean (s rest : Bytes) : Prop := ∃ pre, s = pre ++ rest ∧ ∀ c ∈ pre, 32 ≤ c.toNat

theorem Clean.refl (s : Bytes) : Clean s s := ⟨[], rfl, by simp⟩

theorem Clean.cons {s rest : Bytes} (h : Clean s rest) {c : UInt8} (hc : 32 ≤ c.toNat) : Clean (c :: s) rest := by
  obtain ⟨pre, rfl, h⟩ := h
  exact ⟨c :: pre, rfl, fun x hx => (List.mem_cons.1 hx).elim (fun e => e ▸ hc) (h x)⟩

theorem Clean.trans {a b c : Bytes} (h1 : Clean a b) (h2 : Clean b c) : Clean a c := by
  obtain ⟨p, rfl, hp⟩ := h1
  obtain ⟨p', rfl, hp'⟩ := h2
  exact ⟨p ++ p', by simp, fun x hx => (List.mem_append.1 hx).elim (hp x) (hp' x)⟩

theorem hexVal_clean {c : UInt8} {n : Nat} (h : hexVal c = some n) : 32 ≤ c.toNat := by
  unfold hexVal at h
  split at h
  · omega
  · split at h
    · omega
    · split at h
      · omega
      · cases h

theorem string_clean : ∀ (n : Nat) {s : Bytes} {r : Bytes × Bytes}, s.length ≤ n → jsonString s = some r → Clean s r.2 := by
  intro n
  induction n with
  | zero =>
    intro s r hs h
    cases s with
    | nil => simp [jsonString] at h
    | cons => simp at hs
  | succ n ih =>
    intro s r hs h
    have key : ∀ {t : Bytes} {f : Bytes × Bytes → Bytes × Bytes}, t.length ≤ n →
        (jsonString t).map f = some r → (∀ r, (f r).2 = r.2) → Clean t r.2 := by
      intro t f ht h hf
      obtain ⟨r', h1, rfl⟩ := Option.map_eq_some_iff.1 h
      rw [hf]; exact ih ht h1
    cases s with
    | nil => simp [jsonString] at h
    | cons c s =>
      simp only [List.length_cons] at hs
      unfold jsonString at h
      split at h
      · next hc => cases h; subst hc; exact (Clean.refl _).cons (by decide)
      · split at h
        · next hc =>
          subst hc
          refine Clean.cons ?_ (by decide)
          split at h <;>
            first
            | (simp only [List.length_cons] at hs
               exact (key (by omega) h fun _ => rfl).cons (by decide))
            | skip
          all_goals first | (cases h; done) | skip
          split at h
          · next ha hb hc hd =>
            simp only at h
            split at h
            · cases h
            · simp only [List.length_cons] at hs
              exact (((((key (by omega) h fun _ => rfl).cons (hexVal_clean hd)).cons
                (hexVal_clean hc)).cons (hexVal_clean hb)).cons (hexVal_clean ha)).cons (by decide)
          · cases h
        · split at h
          · cases h
          · next hc => exact (key (by omega) h fun _ => rfl).cons (by omega)

theorem nat_clean {s : Bytes} {r : Nat × Bytes} (h : jsonNat s = some r) : Clean s r.2 := by
  unfold jsonNat at h
  simp only at h
  split at h
  · cases h
  · cases h
    refine ⟨s.takeWhile fun c => decide (IsDigit c), (List.takeWhile_append_dropWhile).symm, fun c hc => ?_⟩
    have h1 : decide (IsDigit c) = true :=
      List.all_eq_true.1 (List.all_takeWhile (p := fun c => decide (IsDigit c)) (l := s)) c hc
    have h2 := (of_decide_eq_true h1).1
    omega

theorem json_clean (n : Nat) :
    (∀ {s : Bytes} {r : JVal × Bytes}, jsonValue n s = some r → Clean s r.2) ∧
    (∀ {s : Bytes} {r : List JVal × Bytes}, jsonItems n s = some r → Clean s r.2) ∧
    (∀ {s : Bytes} {r : List (Bytes × JVal) × Bytes}, jsonMembers n s = some r → Clean s r.2) := by
  induction n with
  | zero => exact ⟨by simp [jsonValue], by simp [jsonItems], by simp [jsonMembers]⟩
  | succ n ih =>
    obtain ⟨ih1, ih2, ih3⟩ := ih
    have tail : ∀ {s : Bytes} {c : UInt8}, s.head? = some c → 32 ≤ c.toNat → Clean s s.tail := by
      intro s c h hc
      cases s with
      | nil => simp at h
      | cons d s => cases h; exact (Clean.refl _).cons hc
    refine ⟨?_, ?_, ?_⟩
    · intro s r h
      cases s with
      | nil => simp [jsonValue] at h
      | cons c s =>
        rw [jsonValue] at h
        split at h
        · next hc =>
          obtain ⟨r', h1, rfl⟩ := Option.map_eq_some_iff.1 h
          exact (string_clean _ (Nat.le_refl _) h1).cons (by subst hc; decide)
        · split at h
          · next hc =>
            refine Clean.cons ?_ (by subst hc; decide)
            split at h
            · next hh => cases h; exact tail hh (by decide)
            · obtain ⟨r', h1, rfl⟩ := Option.map_eq_some_iff.1 h
              exact ih2 h1
          · split at h
            · next hc =>
              refine Clean.cons ?_ (by subst hc; decide)
              split at h
              · next hh => cases h; exact tail hh (by decide)
              · obtain ⟨r', h1, rfl⟩ := Option.map_eq_some_iff.1 h
                exact ih3 h1
            · obtain ⟨r', h1, rfl⟩ := Option.map_eq_some_iff.1 h
              exact nat_clean h1
    · intro s r h
      rw [jsonItems] at h
      split at h
      · next v c t hv =>
        refine (ih1 hv).trans ?_
        split at h
        · next hc =>
          obtain ⟨r', h1, rfl⟩ := Option.map_eq_some_iff.1 h
          exact (ih2 h1).cons (by subst hc; decide)
        · split at h
          · next hc => cases h; exact (Clean.refl _).cons (by subst hc; decide)
          · cases h
      · cases h
    · intro s r h
      unfold jsonMembers at h
      split at h
      · cases h
      · next q t =>
        split at h
        · cases h
        · next hq =>
          refine Clean.cons ?_ (by have : q = 34 := Decidable.not_not.1 hq; subst this; decide)
          split at h
          · next k col t' hk =>
            refine (string_clean _ (Nat.le_refl _) hk).trans ?_
            split at h
            · cases h
            · next hcol =>
              refine Clean.cons ?_ (by have : col = 58 := Decidable.not_not.1 hcol; subst this; decide)
              split at h
              · next v c t2 hv =>
                refine (ih1 hv).trans ?_
                split at h
                · next hc =>
                  obtain ⟨r', h1, rfl⟩ := Option.map_eq_some_iff.1 h
                  exact (ih3 h1).cons (by subst hc; decide)
                · split at h
                  · next hc => cases h; exact (Clean.refl _).cons (by subst hc; decide)
                  · cases h
              · cases h
          · cases h

/-- A JSON text without white space has no control bytes. -/
theorem readJson_clean {s : Bytes} {v : JVal} (h : readJson s = some v) : ∀ c ∈ s, 32 ≤ c.toNat := by
  unfold readJson at h
  split at h
  · next v' hv =>
    obtain ⟨pre, e, hp⟩ := (json_clean _).1 hv
    rw [List.append_nil] at e
    rw [e]; exact hp
  · cases h

theorem readJson_ne_nil {s : Bytes} {v : JVal} (h : readJson s = some v) : s ≠ [] := by
  rintro rfl
  simp [readJson, jsonValue] at h

/-! ## The plain text form -/

theorem cstr_nonul (s : Bytes) : (0 : UInt8) ∉ cstr s := by
  intro h
  have := List.all_takeWhile (p := fun c : UInt8 => c != 0) (l := s)
  simpa using List.all_eq_true.1 this 0 h

/-- What libc writes are strings. -/
structure LocaleStrings (L : Locale) : Prop where
  grouped : ∀ n, (0 : UInt8) ∉ L.grouped n
  clock : ∀ t, (0 : UInt8) ∉ L.clock t

theorem decimal_nonul (n : Nat) : (0 : UInt8) ∉ decimal n := by
  intro h
  exact absurd ((decimal_numeral n).digits 0 h) (by decide)

theorem rrtypeText_nonul (w : Wdns) (t : Nat) : (0 : UInt8) ∉ rrtypeText w t := by
  unfold rrtypeText
  split
  · exact cstr_nonul _
  · have := decimal_nonul (t % 65536)
    simp only [List.mem_append, not_or]
    exact ⟨by decide, this⟩

theorem rrtypesTextLoop_nonul (w : Wdns) (total : Nat) (ts : List Nat) :
    ∀ {u : Bytes} {n : Nat}, (0 : UInt8) ∉ u → (0 : UInt8) ∉ rrtypesTextLoop w total u n ts := by
  induction ts with
  | nil => intro u n h; exact h
  | cons t ts ih =>
    intro u n h
    have h1 := rrtypeText_nonul w t
    refine ih ?_
    unfold fmtRrtype
    split
    · simp only [List.mem_append, not_or]; exact ⟨⟨h, h1⟩, by decide⟩
    · simp only [List.mem_append, not_or]; exact ⟨h, h1⟩

theorem fmtRrtypesUnion_nonul (w : Wdns) {u : Bytes} (e : Entry) (h : (0 : UInt8) ∉ u) :
    (0 : UInt8) ∉ fmtRrtypesUnion w u e := by
  have h0 : (0 : UInt8) ∉ u ++ lit " RRtypes=[" := by
    simp only [List.mem_append, not_or]; exact ⟨h, by decide⟩
  unfold fmtRrtypesUnion
  simp only
  rw [List.mem_append, not_or]
  refine ⟨?_, by decide⟩
  split
  · exact h0
  · split
    · rw [List.mem_append, not_or]; exact ⟨h0, by decide⟩
    · exact rrtypesTextLoop_nonul _ _ _ h0

theorem recordText_nonul (w : Wdns) {u : Bytes} (name : Bytes) (t : Nat) (d : Bytes) (h : (0 : UInt8) ∉ u) :
    (0 : UInt8) ∉ recordText w u name t d := by
  have h1 := rrtypeText_nonul w t
  have h2 := cstr_nonul name
  have h3 := cstr_nonul (w.rdataToStr d (t % 65536))
  unfold recordText fmtRrtype
  simp only [List.mem_append, not_or]
  exact ⟨⟨⟨⟨⟨⟨h, h2⟩, by decide⟩, h1⟩, by decide⟩, h3⟩, by decide⟩

theorem recordsLoop_nonul (w : Wdns) (name : Bytes) (t : Nat) (ds : List Bytes) :
    ∀ {u : Bytes}, (0 : UInt8) ∉ u → (0 : UInt8) ∉ recordsLoop w name t u ds := by
  induction ds with
  | nil => intro u h; exact h
  | cons d ds ih => intro u h; exact ih (recordText_nonul w name t d h)

theorem fmtUint64_nonul {L : Locale} (hL : LocaleStrings L) {u s : Bytes} {v : Nat} (h : (0 : UInt8) ∉ u)
    (hl : (L.grouped v).length ≤ 26) (hs : fmtUint64 L u v = .ok s) : (0 : UInt8) ∉ s := by
  unfold fmtUint64 at hs
  simp only at hs
  rw [if_pos (by omega)] at hs
  cases hs
  rw [List.take_of_length_le hl, List.take_left, List.mem_append, not_or]
  exact ⟨h, hL.grouped v⟩

theorem fmtTime_nonul (gmtime : Int → Option Tm) {L : Locale} (hL : LocaleStrings L) {u : Bytes} (v : Nat)
    (h : (0 : UInt8) ∉ u) : (0 : UInt8) ∉ fmtTime gmtime L u v := by
  unfold fmtTime
  split
  · exact h
  · next r _ =>
    simp only
    generalize (if (L.clock r).length < 32 then (L.clock r).length else 0) = len
    split
    · rw [List.mem_append, not_or]
      exact ⟨h, fun hm => hL.clock r (List.mem_of_mem_take hm)⟩
    · exact h

/-- The plain text form is a string without NUL. -/
theorem entryToText_nonul (gmtime : Int → Option Tm) {L : Locale} (hL : LocaleStrings L)
    (hl : ∀ n < 2 ^ 64, (L.grouped n).length ≤ 26) (w : Wdns)
    {e : Entry} (hc : e.count < 2 ^ 64) {s : Bytes} (h : entryToText gmtime L w e = .ok s) : (0 : UInt8) ∉ s := by
  unfold entryToText entryToTextFmt at h
  simp only at h
  have ne : (0 : UInt8) ∉ ([] : Bytes) := by simp
  split at h
  · unfold textRrset at h
    cases h1 : w.domainToStr e.bailiwick with
    | fail => rw [h1] at h; cases h
    | fault f => rw [h1] at h; cases h
    | ok nm =>
      rw [h1, Out.ok_bind] at h
      simp only at h
      have a1 : (0 : UInt8) ∉ [] ++ lit ";;  bailiwick: " ++ cstr nm ++ lit "\n;;      count: " := by
        have := cstr_nonul nm
        simp only [List.mem_append, not_or]
        exact ⟨⟨⟨by simp, by decide⟩, this⟩, by decide⟩
      cases h2 : fmtUint64 L ([] ++ lit ";;  bailiwick: " ++ cstr nm ++ lit "\n;;      count: ") e.count with
      | fail => rw [h2] at h; cases h
      | fault f => rw [h2] at h; cases h
      | ok u =>
        rw [h2, Out.ok_bind] at h
        have a2 := fmtUint64_nonul hL a1 (hl _ hc) h2
        simp only [timeText, if_true, Out.ok_bind] at h
        cases h3 : w.domainToStr e.name with
        | fail => rw [h3] at h; cases h
        | fault f => rw [h3] at h; cases h
        | ok nm2 =>
          rw [h3, Out.ok_bind] at h
          cases h
          refine recordsLoop_nonul _ _ _ _ ?_
          rw [List.mem_append, not_or]
          refine ⟨fmtTime_nonul _ hL _ ?_, by decide⟩
          have a3 : ∀ {u : Bytes}, (0 : UInt8) ∉ u → (0 : UInt8) ∉ (if e.iszone = true then u ++ lit "\n;; first seen in zone file: "
              else u ++ lit "\n;; first seen: ") := by
            intro u hu; split <;> (rw [List.mem_append, not_or]; exact ⟨hu, by decide⟩)
          have a4 : ∀ {u : Bytes}, (0 : UInt8) ∉ u → (0 : UInt8) ∉ (if e.iszone = true then u ++ lit "\n;;  last seen in zone file: "
              else u ++ lit "\n;;  last seen: ") := by
            intro u hu; split <;> (rw [List.mem_append, not_or]; exact ⟨hu, by decide⟩)
          exact a4 (fmtTime_nonul _ hL _ (a3 a2))
  · split at h
    · unfold textRdata at h
      split at h
      · cases h3 : w.domainToStr e.name with
        | fail => rw [h3] at h; cases h
        | fault f => rw [h3] at h; cases h
        | ok nm =>
          rw [h3, Out.ok_bind] at h
          cases h
          exact recordText_nonul _ _ _ _ ne
      · cases h
    · have idx : ∀ tail, (0 : UInt8) ∉ lit tail → textIndex w tail e [] = .ok s → (0 : UInt8) ∉ s := by
        intro tail ht h
        unfold textIndex at h
        cases h3 : w.domainToStr e.name with
        | fail => rw [h3] at h; cases h
        | fault f => rw [h3] at h; cases h
        | ok nm =>
          rw [h3, Out.ok_bind] at h
          cases h
          rw [List.mem_append, not_or]
          exact ⟨fmtRrtypesUnion_nonul w e (by simpa using cstr_nonul nm), ht⟩
      split at h
      · exact idx _ (by decide) h
      · split at h
        · exact idx _ (by decide) h
        · split at h
          · unfold textTimes at h
            simp only [timeText, if_true, Out.ok_bind] at h
            cases h
            rw [List.mem_append, not_or]
            refine ⟨fmtTime_nonul _ hL _ ?_, by decide⟩
            rw [List.mem_append, not_or]
            exact ⟨fmtTime_nonul _ hL _ (by decide), by decide⟩
          · split at h
            · unfold textSource at h
              split at h
              · cases h
              · next x _ =>
                cases h
                have := cstr_nonul x
                simp only [List.mem_append, not_or]
                exact ⟨⟨⟨by simp, by decide⟩, this⟩, by decide⟩
            · split at h
              · unfold textVersion at h
                cases h
                have h1 := decimal_nonul e.version
                have h2 : (0 : UInt8) ∉ versionType e := by
                  unfold versionType
                  split
                  · exact decimal_nonul _
                  · exact cstr_nonul _
                simp only [List.mem_append, not_or]
                exact ⟨by simp, ⟨⟨⟨by decide, h2⟩, by decide⟩, h1⟩, by decide⟩
              · cases h; exact ne

end Verif
