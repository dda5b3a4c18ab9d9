import Verif.Lemmas.ParseTime

/-! # C53: time arguments -/

namespace Verif.Props
open Verif Verif.Spec

/-! ## Texts that are not dates -/

/-- No format takes the whole text. -/
def NoDate (T : TimeLibs) (s : Bytes) : Prop := ∀ f ∈ dateFormats, ∀ tt, (T.strptime f s tt).1 ≠ some []

theorem tryDates_none {T : TimeLibs} {s : Bytes} : ∀ (fs : List Bytes), (∀ f ∈ fs, ∀ tt, (T.strptime f s tt).1 ≠ some []) →
    ∀ tt, tryDates T s fs tt = none := by
  intro fs
  induction fs with
  | nil => intros; rfl
  | cons f fs ih =>
    intro h tt
    unfold tryDates
    have hf := h f (by simp) tt
    split
    · next h' => rw [h'] at hf; exact absurd rfl hf
    · exact ih (fun f hf => h f (by simp [hf])) _

theorem blank_not_digit {c : UInt8} (h : Blank c) : ¬ IsDigit c := by
  revert h
  refine u8_all (P := fun c => Blank c → ¬ IsDigit c) ?_ c
  unfold Blank
  decide +kernel

/-- Texts without a dash are no dates. -/
theorem noDate_of_noDash {T : TimeLibs} (hT : TimeLibsOk T) {s : Bytes} (h : 45 ∉ s) : NoDate T s := by
  intro f hf tt e
  obtain ⟨a, c, b, d, rfl, -⟩ := hT.dash f hf s tt e
  exact h (by simp)

/-- A dash before all digits is no date either. -/
theorem noDate_ago {T : TimeLibs} (hT : TimeLibsOk T) {ws ds : Bytes} (hw : ∀ c ∈ ws, Blank c) (hd : ∀ c ∈ ds, IsDigit c) :
    NoDate T (ws ++ 45 :: ds) := by
  intro f hf tt e
  obtain ⟨a, c, b, d, e, hc⟩ := hT.dash f hf _ tt e
  have hds : 45 ∉ ds := fun h => (digit_plain (hd _ h)).1 rfl
  have hws : 45 ∉ ws := fun h => by
    have := hw _ h
    revert this; unfold Blank; decide
  rw [List.append_eq_append_iff] at e
  rcases e with ⟨x, h1, h2⟩ | ⟨x, h1, h2⟩
  · cases x with
    | nil =>
      rw [List.append_nil] at h1
      have : c ∈ ws := by rw [← h1]; simp
      exact blank_not_digit (hw c this) hc
    | cons y x =>
      simp only [List.cons_append, List.cons.injEq] at h2
      apply hds
      rw [h2.2]; simp
  · apply hws
    rw [h1]
    cases x with
    | nil =>
      simp only [List.nil_append, List.cons.injEq] at h2
      have : c ∈ ws := by rw [h1]; simp
      exact absurd hc (blank_not_digit (hw c this))
    | cons y x =>
      simp only [List.cons_append, List.cons.injEq] at h2
      rw [← h2.1]; simp

theorem lengthText_noDash {s : Bytes} {n : Nat} (h : LengthText s n) : 45 ∉ s := by
  obtain ⟨ws, sign, ds, rfl, hw, hs, -, hd, -⟩ := h
  simp only [List.mem_append, not_or]
  refine ⟨⟨fun h => ?_, ?_⟩, fun h => (digit_plain (hd _ h)).1 rfl⟩
  · have := hw _ h
    revert this; unfold Blank; decide
  · rcases hs with rfl | rfl <;> decide

theorem span_noDash {s : Bytes} {m : Nat} (h : Span s m) : 45 ∉ s := by
  induction h with
  | nil => simp
  | last hl _ => exact lengthText_noDash hl
  | cons hl _ hu _ ih =>
    simp only [List.mem_append, List.mem_cons, not_or]
    refine ⟨lengthText_noDash hl, ?_, ih⟩
    rintro rfl
    revert hu
    simp [units]

theorem unit_not_text {c : UInt8} {k : Nat} (h : (c, k) ∈ units) : ¬ Blank c ∧ c ≠ 43 := by
  revert h
  unfold Blank
  simp only [units, List.mem_cons, Prod.mk.injEq, List.not_mem_nil, or_false]
  rintro (⟨rfl, -⟩ | ⟨rfl, -⟩ | ⟨rfl, -⟩ | ⟨rfl, -⟩ | ⟨rfl, -⟩ | ⟨rfl, -⟩ | ⟨rfl, -⟩ | ⟨rfl, -⟩ | ⟨rfl, -⟩ | ⟨rfl, -⟩) <;>
    decide

theorem lengthText_noUnit {s : Bytes} {n : Nat} {c : UInt8} {k : Nat} (h : LengthText s n) (hu : (c, k) ∈ units) : c ∉ s := by
  obtain ⟨ws, sign, ds, rfl, hw, hs, -, hd, -⟩ := h
  simp only [List.mem_append, not_or]
  refine ⟨⟨fun h => (unit_not_text hu).1 (hw _ h), ?_⟩, fun h => unit_not_digit hu (hd _ h)⟩
  rcases hs with rfl | rfl
  · simp
  · simpa using (unit_not_text hu).2

theorem toU64_small {n : Nat} (h : n < 2 ^ 63) : toU64 n = n := by
  unfold toU64; omega

/-- The part of `parse_time` after the dates. -/
theorem parseTime_noDate {T : TimeLibs} {now : Int} {s : Bytes} (h : NoDate T s) :
    parseTime T now s =
      if (strtoll s).2 = [] then
        if (strtoll s).1 < 0 then if (strtoll s).1 + now < 0 then .ok 0 else .ok (toU64 ((strtoll s).1 + now))
        else .ok (toU64 (strtoll s).1)
      else
        match unitsLoop (s.length + 1) s 0 with
        | .ok total => if total > now then .ok 0 else .ok (toU64 (now - total))
        | .fail => .ok 0
        | .fault f => .fault f := by
  unfold parseTime
  rw [tryDates_none _ h]
  rfl

/-- What the documentation gives a meaning is understood so, if only the zero is not yet refused. -/
theorem parseTime_moment {T : TimeLibs} (hT : TimeLibsOk T) {now v : Nat} (hnow : now < 2 ^ 63) {s : Bytes} (h : Moment now s v)
    (hv : v < 2 ^ 63) : parseTime T now s = .ok v := by
  cases h with
  | @date s t ht hval hy =>
    obtain ⟨i, hi, hmid⟩ := ht
    have hlen : i < 4 := by
      have := (List.getElem?_eq_some_iff.1 hi).1
      simpa [stampTexts] using this
    have htm0 : i = 0 → ({ t.tm with hour := 0, min := 0, sec := 0 } : Tm) = t.tm := by
      intro h
      obtain ⟨h1, h2, h3⟩ := hmid h
      unfold Stamp.tm
      rw [h1, h2, h3]; rfl
    have key : ∀ tt : Tm, tryDates T s dateFormats tt = some (if i = 0 then { t.tm with hour := tt.hour, min := tt.min, sec := tt.sec } else t.tm) := by
      -- formats before the right one fail, the right one reads
      have step : ∀ (j : Nat) (fs : List Bytes), j ≤ i → dateFormats.drop j = fs → ∀ tt : Tm, (i = 0 → True) →
          ∃ tt', tryDates T s fs tt = some (if i = 0 then { t.tm with hour := tt'.hour, min := tt'.min, sec := tt'.sec } else t.tm) ∧
            (j = i → tt' = tt) := by
        intro j fs
        induction fs generalizing j with
        | nil =>
          intro hj hd
          have := List.drop_eq_nil_iff.1 hd
          simp only [dateFormats, List.length_cons, List.length_nil] at this
          omega
        | cons f fs ih =>
          intro hj hd tt _
          have hf : dateFormats[j]? = some f := by
            have : (dateFormats.drop j)[0]? = some f := by rw [hd]; rfl
            simpa using this
          unfold tryDates
          by_cases hji : j = i
          · subst hji
            rw [hT.reads t hval hy j f s hf hi tt]
            exact ⟨tt, rfl, fun _ => rfl⟩
          · have hw := hT.whole t hval hy i j f s hf hi (by omega) tt
            split
            · next h' => rw [h'] at hw; exact absurd rfl hw
            · next tt1 _ _ =>
              obtain ⟨tt', h1, -⟩ := ih (j + 1) (by omega) (by
                rw [← List.drop_drop, hd]; rfl) tt1 (fun _ => trivial)
              exact ⟨tt', h1, fun h => absurd h hji⟩
      intro tt
      obtain ⟨tt', h1, h2⟩ := step 0 dateFormats (by omega) rfl tt (fun _ => trivial)
      rw [h1]
      by_cases h : i = 0
      · rw [h2 h.symm]
      · rw [if_neg h, if_neg h]
    unfold parseTime
    rw [key]
    simp only
    have : (if i = 0 then ({ t.tm with hour := 0, min := 0, sec := 0 } : Tm) else t.tm) = t.tm := by
      by_cases h : i = 0
      · rw [if_pos h]; exact htm0 h
      · rw [if_neg h]
    rw [this, hT.seconds t hval hy, toU64_small hv]
  | absolute hl =>
    have e := strtoll_length (rest := []) hl (by intro c t h; cases h)
    rw [List.append_nil, clampLL_small hv] at e
    rw [parseTime_noDate (noDate_of_noDash hT (lengthText_noDash hl)), e]
    simp only [if_true]
    rw [if_neg (by omega), toU64_small hv]
  | @ago ws ds hw hn hd hpos hle =>
    have e := strtoll_eq (sign := [45]) (rest := []) hw (.inr (.inr rfl)) hn hd (by intro c t h; cases h)
    rw [List.append_nil, List.append_assoc] at e
    rw [if_pos rfl] at e
    rw [parseTime_noDate (noDate_ago hT hw hd)]
    simp only [List.cons_append, List.nil_append] at e
    have hc : clampLL (-(numval ds : Int)) = -(numval ds : Int) := by
      unfold clampLL
      rw [if_neg (by omega), if_neg (by omega)]
    rw [hc] at e
    rw [e]
    simp only [if_true]
    have hsub : (-(numval ds : Int)) + (now : Int) = ((now - numval ds : Nat) : Int) := by omega
    rw [if_pos (by omega), if_neg (by omega), hsub, toU64_small (by omega)]
  | @span s m hs hu hle =>
    obtain ⟨c, k, hu, hc⟩ := hu
    have hne : (strtoll s).2 ≠ [] := by
      cases hs with
      | nil => simp at hc
      | last hl _ => exact absurd hc (lengthText_noUnit hl hu)
      | cons hl _ hu' _ =>
        rw [strtoll_length hl (by intro d t h; cases h; exact unit_not_digit hu')]
        simp
    rw [parseTime_noDate (noDate_of_noDash hT (span_noDash hs)), if_neg hne]
    have := unitsLoop_span hs (s.length + 1) 0 (by omega) (by omega)
    rw [show (((0 : Nat) : Int)) = 0 from rfl, Int.zero_add] at this
    rw [this]
    simp only
    rw [if_neg (by omega), show (now : Int) - (m : Int) = ((now - m : Nat) : Int) by omega, toU64_small (by omega)]

/-- C53, numbers and spans: what the documentation gives a meaning is understood so. -/
theorem C53_understood {T : TimeLibs} (hT : TimeLibsOk T) {now v : Nat} (hnow : now < 2 ^ 63) {s : Bytes} (h : Moment now s v)
    (hv : v < 2 ^ 63) (h0 : v ≠ 0) : timeOption T now s = .ok v := by
  unfold timeOption
  rw [parseTime_moment hT hnow h hv, Out.ok_bind, if_neg h0]

/-- C53, the other way round: of texts that are no dates, nothing else is taken for a time, as long as a number alone
is below 2^63. -/
theorem C53_refused_partial {T : TimeLibs} {now v : Nat} (hnow : now < 2 ^ 63 - 1) {s : Bytes} (hs : NoDate T s)
    (hbig : ∀ n, LengthText s n → n < 2 ^ 63) (h : timeOption T now s = .ok v) : Moment now s v ∧ v ≠ 0 := by
  unfold timeOption at h
  cases hp : parseTime T now s with
  | fail => rw [hp] at h; cases h
  | fault f => rw [hp] at h; cases h
  | ok t =>
    rw [hp, Out.ok_bind] at h
    by_cases ht : t = 0
    · rw [if_pos ht] at h; cases h
    · rw [if_neg ht] at h
      cases h
      refine ⟨?_, ht⟩
      rw [parseTime_noDate hs] at hp
      by_cases hr : (strtoll s).2 = []
      · rw [if_pos hr] at hp
        rcases strtoll_cases s with e | ⟨ws, sign, ds, rest, rfl, hw, hsg, hn, hd, hrest⟩
        · rw [e] at hp
          simp [toU64] at hp
          exact absurd hp.symm ht
        · have e := strtoll_eq hw hsg hn hd hrest
          rw [e] at hr hp
          simp only at hr hp
          subst hr
          rw [List.append_nil] at hbig ⊢
          by_cases h45 : sign = [45]
          · subst h45
            rw [if_pos rfl] at hp
            by_cases hz : numval ds = 0
            · rw [hz] at hp
              simp [clampLL, toU64] at hp
              exact absurd hp.symm ht
            · have hneg : clampLL (-(numval ds : Int)) < 0 := by
                unfold clampLL
                split
                · omega
                · split <;> omega
              rw [if_pos hneg] at hp
              by_cases hlt : clampLL (-(numval ds : Int)) + (now : Int) < 0
              · rw [if_pos hlt] at hp
                cases hp
                exact absurd rfl ht
              · rw [if_neg hlt] at hp
                have hc : clampLL (-(numval ds : Int)) = -(numval ds : Int) := by
                  unfold clampLL at hlt ⊢
                  split
                  · next h => rw [if_pos h] at hlt; omega
                  · rw [if_neg (by omega)]
                rw [hc] at hp hlt
                rw [show (-(numval ds : Int)) + (now : Int) = ((now - numval ds : Nat) : Int) by omega,
                  toU64_small (by omega)] at hp
                cases hp
                rw [List.append_assoc]
                show Moment now (ws ++ 45 :: ds) _
                exact .ago hw hn hd (by omega) (by omega)
          · have hsg' : sign = [] ∨ sign = [43] := by
              rcases hsg with h | h | h
              · exact .inl h
              · exact .inr h
              · exact absurd h h45
            have hl : LengthText (ws ++ sign ++ ds) (numval ds) := ⟨ws, sign, ds, rfl, hw, hsg', hn, hd, rfl⟩
            have hb := hbig _ hl
            rw [if_neg h45, clampLL_small hb, if_neg (by omega), toU64_small hb] at hp
            cases hp
            exact .absolute hl
      · rw [if_neg hr] at hp
        cases hu : unitsLoop (s.length + 1) s 0 with
        | fail => rw [hu] at hp; cases hp; exact absurd rfl ht
        | fault f => rw [hu] at hp; cases hp
        | ok total =>
          rw [hu] at hp
          simp only at hp
          by_cases hgt : total > (now : Int)
          · rw [if_pos hgt] at hp; cases hp; exact absurd rfl ht
          · rw [if_neg hgt] at hp
            obtain ⟨m, hm, hv⟩ := unitsLoop_inv _ s 0 total hu (by omega)
            rw [show (((0 : Nat) : Int)) = 0 from rfl, Int.zero_add] at hv
            subst hv
            rw [show (now : Int) - (m : Int) = ((now - m : Nat) : Int) by omega, toU64_small (by omega)] at hp
            cases hp
            refine .span hm ?_ (by omega)
            cases hm with
            | nil => exact absurd (by rfl) hr
            | last hl _ =>
              have e := strtoll_length (rest := []) hl (by intro c t h; cases h)
              rw [List.append_nil] at e
              rw [e] at hr
              exact absurd rfl hr
            | cons hl _ hu' _ => exact ⟨_, _, hu', by simp⟩

/-! ## Overflow -/

theorem numval_lt {ds : Bytes} (h : ∀ c ∈ ds, IsDigit c) : numval ds < 10 ^ ds.length := by
  have key : ∀ (ds : Bytes) (a : Nat), (∀ c ∈ ds, IsDigit c) →
      ds.foldl (fun a c => 10 * a + (c.toNat - 48)) a < (a + 1) * 10 ^ ds.length := by
    intro ds
    induction ds with
    | nil => intro a _; simp
    | cons c ds ih =>
      intro a h
      have hc := h c (by simp)
      unfold IsDigit at hc
      refine Nat.lt_of_lt_of_le (ih _ fun c hc => h c (by simp [hc])) ?_
      rw [List.length_cons, Nat.pow_succ, show (a + 1) * (10 ^ ds.length * 10) = ((a + 1) * 10) * 10 ^ ds.length by
        rw [Nat.mul_assoc, Nat.mul_comm 10 (10 ^ ds.length)]]
      exact Nat.mul_le_mul_right _ (by show 10 * a + (c.toNat - 48) + 1 ≤ (a + 1) * 10; omega)
  have := key ds 0 h
  rw [Nat.zero_add, Nat.one_mul] at this
  exact this

theorem lengthText_lt {x : Bytes} {n : Nat} (h : LengthText x n) : n < 10 ^ x.length := by
  obtain ⟨ws, sign, ds, rfl, -, -, -, hd, rfl⟩ := h
  refine Nat.lt_of_lt_of_le (numval_lt hd) (Nat.pow_le_pow_right (by omega) ?_)
  simp only [List.length_append]
  omega

theorem scaleUnit_safe {ll : Int} {o : Option UInt8} (h0 : 0 < ll) (h : ll * 604800 < 2 ^ 63) :
    scaleUnit ll o = .fail ∨ ∃ v, scaleUnit ll o = .ok v ∧ 0 < v ∧ v ≤ ll * 604800 := by
  cases o with
  | none => exact .inr ⟨ll, rfl, h0, by omega⟩
  | some c =>
    unfold scaleUnit mulLL
    simp only
    split
    · right
      rw [longLong_ok (by omega) (by omega), Out.ok_bind, longLong_ok (by omega) (by omega), Out.ok_bind,
        longLong_ok (by omega) (by omega), Out.ok_bind, longLong_ok (by omega) (by omega)]
      exact ⟨_, rfl, by omega, by omega⟩
    · split
      · right
        rw [longLong_ok (by omega) (by omega), Out.ok_bind, longLong_ok (by omega) (by omega), Out.ok_bind,
          longLong_ok (by omega) (by omega)]
        exact ⟨_, rfl, by omega, by omega⟩
      · split
        · right
          rw [longLong_ok (by omega) (by omega), Out.ok_bind, longLong_ok (by omega) (by omega)]
          exact ⟨_, rfl, by omega, by omega⟩
        · split
          · right
            rw [longLong_ok (by omega) (by omega)]
            exact ⟨_, rfl, by omega, by omega⟩
          · split
            · exact .inr ⟨ll, rfl, h0, by omega⟩
            · exact .inl rfl

theorem unitsLoop_safe : ∀ (n : Nat) (s : Bytes) (total : Nat), s.length < n → total + 10 ^ s.length * 604800 < 2 ^ 63 →
    ∀ f, unitsLoop n s total ≠ .fault f := by
  intro n
  induction n with
  | zero => intro s total h; omega
  | succ n ih =>
    intro s total hn hb f
    unfold unitsLoop
    by_cases hs : s = []
    · rw [if_pos hs]; simp
    · rw [if_neg hs]
      simp only
      by_cases h0 : (strtoll s).1 ≤ 0
      · rw [if_pos h0]; simp
      · rw [if_neg h0]
        obtain ⟨x, k, hx, hl, hk, hc, hr⟩ := strtoll_pos (s := s) (by omega)
        have hlen : s.length = x.length + (strtoll s).2.length := by
          conv => lhs; rw [hx]
          rw [List.length_append]
        have hxpos : 0 < x.length := List.length_pos_iff.2 (lengthText_ne_nil hl)
        have hlt := lengthText_lt hl
        have hpow : 10 ^ x.length ≤ 10 ^ s.length := Nat.pow_le_pow_right (by omega) (by omega)
        rw [clampLL_small (by omega)] at hc
        rcases scaleUnit_safe (o := (strtoll s).2.head?) (show 0 < (strtoll s).1 by omega) (by omega) with h | ⟨v, h, hv0, hv⟩
        · rw [h]; simp
        · rw [h, Out.ok_bind]
          have hvb : v ≤ (10 ^ x.length : Nat) * 604800 := by omega
          have hsum : total + 10 ^ x.length * 604800 + 10 ^ ((strtoll s).2.drop 1).length * 604800 ≤
              total + 10 ^ s.length * 604800 ∨ (strtoll s).2.drop 1 = [] := by
            by_cases he : (strtoll s).2.drop 1 = []
            · exact .inr he
            · left
              have hl' : ((strtoll s).2.drop 1).length + 1 = (strtoll s).2.length := by
                have : 0 < ((strtoll s).2.drop 1).length := List.length_pos_iff.2 he
                rw [List.length_drop] at this ⊢
                omega
              have e : 10 ^ s.length = 10 ^ x.length * 10 ^ ((strtoll s).2.drop 1).length * 10 := by
                rw [← Nat.pow_add, ← Nat.pow_succ]
                congr 1
                omega
              have a1 : 1 ≤ 10 ^ x.length := Nat.pow_pos (by omega)
              have a2 : 1 ≤ 10 ^ ((strtoll s).2.drop 1).length := Nat.pow_pos (by omega)
              have b1 := Nat.mul_le_mul_left (10 ^ x.length) a2
              have b2 := Nat.mul_le_mul_right (10 ^ ((strtoll s).2.drop 1).length) a1
              rw [e]
              omega
          rw [longLong_ok (by omega) (by omega), Out.ok_bind]
          rcases hsum with hsum | he
          · rw [show (total : Int) + v = ((total + v.toNat : Nat) : Int) by omega]
            refine ih _ _ ?_ ?_ f
            · rw [List.length_drop]; omega
            · omega
          · rw [he]
            cases n with
            | zero => omega
            | succ n => simp [unitsLoop]

/-- C53, safety: times of up to 13 characters are computed without overflow. -/
theorem C53_short (T : TimeLibs) (now : Int) {s : Bytes} (h : s.length ≤ 13) (f : Fault) : timeOption T now s ≠ .fault f := by
  have hp : ∃ t, parseTime T now s = .ok t := by
    unfold parseTime
    split
    · exact ⟨_, rfl⟩
    · simp only
      split
      · split
        · split
          · exact ⟨_, rfl⟩
          · exact ⟨_, rfl⟩
        · exact ⟨_, rfl⟩
      · have hpow : 10 ^ s.length ≤ 10 ^ 13 := Nat.pow_le_pow_right (by omega) h
        have := unitsLoop_safe (s.length + 1) s 0 (by omega) (by omega)
        split
        · split
          · exact ⟨_, rfl⟩
          · exact ⟨_, rfl⟩
        · exact ⟨_, rfl⟩
        · next f h => exact absurd h (this f)
  obtain ⟨t, hp⟩ := hp
  unfold timeOption
  rw [hp, Out.ok_bind]
  split <;> simp

/-! ## A libc that keeps the contract -/

/-- Reads `YYYY-MM-DD`. -/
def exDate : Bytes → Tm → Option Bytes × Tm
  | y1 :: y2 :: y3 :: y4 :: 45 :: m1 :: m2 :: 45 :: d1 :: d2 :: r, tt =>
    if ∀ c ∈ [y1, y2, y3, y4, m1, m2, d1, d2], IsDigit c then
      (some r, { tt with year := (numval [y1, y2, y3, y4] : Int) - 1900, mon := (numval [m1, m2] : Int) - 1,
                         mday := numval [d1, d2] })
    else (none, tt)
  | _, tt => (none, tt)

/-- Reads `hh:mm:ss`. -/
def exClock : Bytes → Tm → Option Bytes × Tm
  | h1 :: h2 :: 58 :: n1 :: n2 :: 58 :: s1 :: s2 :: r, tt =>
    if ∀ c ∈ [h1, h2, n1, n2, s1, s2], IsDigit c then
      (some r, { tt with hour := numval [h1, h2], min := numval [n1, n2], sec := numval [s1, s2] })
    else (none, tt)
  | _, tt => (none, tt)

/-- A `strptime` for the four formats. -/
def exStrptime (f s : Bytes) (tt : Tm) : Option Bytes × Tm :=
  if f = lit "%F" then exDate s tt
  else if f = lit "%F %T" then
    match exDate s tt with
    | (some (32 :: r), tt) => exClock r tt
    | (_, tt) => (none, tt)
  else if f = lit "%FT%T" then
    match exDate s tt with
    | (some (84 :: r), tt) => exClock r tt
    | (_, tt) => (none, tt)
  else if f = lit "%FT%TZ" then
    match exDate s tt with
    | (some (84 :: r), tt) =>
      match exClock r tt with
      | (some (90 :: r), tt) => (some r, tt)
      | (_, tt) => (none, tt)
    | (_, tt) => (none, tt)
  else (none, tt)

/-- Days of `n` years from `y` on. -/
def exDays (y : Nat) : Nat → Nat
  | 0 => 0
  | n + 1 => exDays y n + yearLen (y + n)

/-- A `timegm` for years from 1900 on. -/
def exTimegm (tt : Tm) : Int :=
  let t : Stamp := ⟨(tt.year + 1900).toNat, (tt.mon + 1).toNat, tt.mday.toNat, tt.hour.toNat, tt.min.toNat, tt.sec.toNat⟩
  if 1970 ≤ t.year then t.seconds
  else
    (((((daysOfMonths t.year (t.month - 1) + (t.day - 1) : Nat) : Int) - (exDays t.year (1970 - t.year) : Nat)) * 24 + t.hour) * 60 +
      t.minute) * 60 + t.second

/-- These two together. -/
def exTime : TimeLibs := ⟨exStrptime, exTimegm⟩

theorem padded_eq (k n : Nat) : padded k n = digitsK k n := by
  induction k generalizing n with
  | zero => rfl
  | succ k ih => simp only [padded, digitsK, ih]; rfl

theorem exDate_text {t : Stamp} (h : t.Valid) (hy : t.year ≤ 9999) (r : Bytes) (tt : Tm) :
    exDate (dateText t ++ r) tt = (some r, { t.tm with hour := tt.hour, min := tt.min, sec := tt.sec }) := by
  obtain ⟨y, mo, d, hh, mi, s⟩ := t
  obtain ⟨-, -, h3, -, h5, -⟩ := id h
  have := monthLen_le y mo
  simp only at h3 h5 hy
  have D : ∀ k n, n < 10 ^ k → numval (digitsK k n) = n := fun k n hn => by rw [digitsK_value, Nat.mod_eq_of_lt hn]
  have e4 := D 4 y (by omega)
  have em := D 2 mo (by omega)
  have ed := D 2 d (by omega)
  have I : ∀ n, IsDigit (digitChar n) := by intro n; unfold IsDigit; rw [digitChar_toNat]; omega
  simp only [digitsK, List.nil_append, List.cons_append] at e4 em ed
  simp only [dateText, padded_eq, digitsK, List.nil_append, List.cons_append, exDate]
  rw [e4, em, ed, if_pos]
  · rfl
  · intro c hc
    simp only [List.mem_cons, List.not_mem_nil, or_false] at hc
    rcases hc with rfl | rfl | rfl | rfl | rfl | rfl | rfl | rfl <;> exact I _

theorem exClock_text {t : Stamp} (h : t.Valid) (r : Bytes) (tt : Tm) :
    exClock (clockText t ++ r) tt = (some r, { tt with hour := t.tm.hour, min := t.tm.min, sec := t.tm.sec }) := by
  obtain ⟨y, mo, d, hh, mi, s⟩ := t
  obtain ⟨-, -, -, -, -, h6, h7, h8⟩ := id h
  simp only at h6 h7 h8
  have D : ∀ k n, n < 10 ^ k → numval (digitsK k n) = n := fun k n hn => by rw [digitsK_value, Nat.mod_eq_of_lt hn]
  have eh := D 2 hh (by omega)
  have en := D 2 mi (by omega)
  have es := D 2 s (by omega)
  have I : ∀ n, IsDigit (digitChar n) := by intro n; unfold IsDigit; rw [digitChar_toNat]; omega
  simp only [digitsK, List.nil_append, List.cons_append] at eh en es
  simp only [clockText, padded_eq, digitsK, List.nil_append, List.cons_append, exClock]
  rw [eh, en, es, if_pos]
  · rfl
  · intro c hc
    simp only [List.mem_cons, List.not_mem_nil, or_false] at hc
    rcases hc with rfl | rfl | rfl | rfl | rfl | rfl <;> exact I _

theorem exDate_dash {s : Bytes} {tt : Tm} {r : Bytes} (h : (exDate s tt).1 = some r) :
    ∃ a c b d, s = a ++ c :: b ++ 45 :: d ∧ IsDigit c := by
  unfold exDate at h
  split at h
  · next _ y1 y2 y3 y4 m1 m2 d1 d2 r =>
    split at h
    · next hd =>
      exact ⟨[], y1, [y2, y3, y4], _, rfl, hd y1 (by simp)⟩
    · cases h
  · cases h

theorem exTime_ok : TimeLibsOk exTime where
  reads t ht hy i f s hf hs tt := by
    show exStrptime f s tt = _
    match i with
    | 0 =>
      cases hf; cases hs
      simp only [exStrptime, if_true]
      have := exDate_text ht hy [] tt
      rwa [List.append_nil] at this
    | 1 =>
      cases hf; cases hs
      simp only [exStrptime, if_true]
      rw [if_neg (by decide), exDate_text ht hy]
      have := exClock_text ht [] { t.tm with hour := tt.hour, min := tt.min, sec := tt.sec }
      rw [List.append_nil] at this
      exact this
    | 2 =>
      cases hf; cases hs
      simp only [exStrptime, if_true]
      rw [if_neg (by decide), if_neg (by decide), exDate_text ht hy]
      have := exClock_text ht [] { t.tm with hour := tt.hour, min := tt.min, sec := tt.sec }
      rw [List.append_nil] at this
      exact this
    | 3 =>
      cases hf; cases hs
      simp only [exStrptime, if_true]
      rw [if_neg (by decide), if_neg (by decide), if_neg (by decide), List.append_assoc, exDate_text ht hy]
      simp only [List.cons_append]
      rw [exClock_text ht]
      rfl
    | i + 4 => simp [dateFormats] at hf
  whole t ht hy i j f s hf hs hji tt := by
    show (exStrptime f s tt).1 ≠ _
    match j, i, hji with
    | 0, 1, _ =>
      cases hf; cases hs
      simp only [exStrptime, if_true]
      rw [exDate_text ht hy]; simp
    | 0, 2, _ =>
      cases hf; cases hs
      simp only [exStrptime, if_true]
      rw [exDate_text ht hy]; simp
    | 0, 3, _ =>
      cases hf; cases hs
      simp only [exStrptime, if_true]
      rw [List.append_assoc, exDate_text ht hy]; simp
    | 1, 2, _ =>
      cases hf; cases hs
      simp only [exStrptime, if_true]
      rw [if_neg (by decide), exDate_text ht hy]; simp
    | 1, 3, _ =>
      cases hf; cases hs
      simp only [exStrptime, if_true]
      rw [if_neg (by decide), List.append_assoc, exDate_text ht hy]; simp
    | 2, 3, _ =>
      cases hf; cases hs
      simp only [exStrptime, if_true]
      rw [if_neg (by decide), if_neg (by decide), List.append_assoc, exDate_text ht hy]
      simp only [List.cons_append]
      rw [exClock_text ht]; simp
    | _, i + 4, _ => simp [stampTexts] at hs
    | _, 0, h => omega
    | j + 1, 1, h => omega
    | j + 2, 2, h => omega
    | j + 3, 3, h => omega
  dash f hf s tt h := by
    have h : (exStrptime f s tt).1 = some [] := h
    simp only [dateFormats, List.mem_cons, List.not_mem_nil, or_false] at hf
    rcases hf with rfl | rfl | rfl | rfl
    · simp only [exStrptime, if_true] at h
      exact exDate_dash h
    · simp only [exStrptime, if_true] at h
      rw [if_neg (by decide)] at h
      cases e : exDate s tt with
      | mk o u =>
        cases o with
        | none => rw [e] at h; cases h
        | some r => exact exDate_dash (by rw [e])
    · simp only [exStrptime, if_true] at h
      rw [if_neg (by decide), if_neg (by decide)] at h
      cases e : exDate s tt with
      | mk o u =>
        cases o with
        | none => rw [e] at h; cases h
        | some r => exact exDate_dash (by rw [e])
    · simp only [exStrptime, if_true] at h
      rw [if_neg (by decide), if_neg (by decide), if_neg (by decide)] at h
      cases e : exDate s tt with
      | mk o u =>
        cases o with
        | none => rw [e] at h; cases h
        | some r => exact exDate_dash (by rw [e])
  seconds t ht hy := by
    show exTimegm t.tm = _
    obtain ⟨y, mo, d, hh, mi, s⟩ := t
    obtain ⟨h1, h2, h3, -⟩ := id ht
    simp only at h1 h2 h3
    unfold exTimegm Stamp.tm
    simp only
    have e : (⟨((y : Int) - 1900 + 1900).toNat, ((mo : Int) - 1 + 1).toNat, (d : Int).toNat, (hh : Int).toNat, (mi : Int).toNat,
        (s : Int).toNat⟩ : Stamp) = ⟨y, mo, d, hh, mi, s⟩ := by
      simp only [Stamp.mk.injEq]; omega
    rw [if_pos (by omega)]
    simp only [Stamp.mk.injEq] at e
    obtain ⟨e1, e2, e3, e4, e5, e6⟩ := e
    rw [e1, e2, e3, e4, e5, e6]

/-- The forms of the manual page, at the second 1600000000. -/
example :
    timeOption exTime 1600000000 (lit "2020-01-01 12:00:00") = .ok 1577880000 ∧
    timeOption exTime 1600000000 (lit "2020-01-01T12:00:00Z") = .ok 1577880000 ∧
    timeOption exTime 1600000000 (lit "2020-01-01") = .ok 1577836800 ∧
    timeOption exTime 1600000000 (lit "1577880000") = .ok 1577880000 ∧
    timeOption exTime 1600000000 (lit "-300") = .ok 1599999700 ∧
    timeOption exTime 1600000000 (lit "52w3d") = .ok (1600000000 - 367 * 86400) ∧
    timeOption exTime 1600000000 (lit "4H30M") = .ok (1600000000 - 16200) ∧
    timeOption exTime 1600000000 (lit "1970-01-01T00:00:00Z") = .fail ∧
    timeOption exTime 1600000000 (lit "3x") = .fail := by
  decide +kernel

/-- `52w3d` is a span of 367 days. -/
example : Moment 1600000000 (lit "52w3d") (1600000000 - 367 * 86400) := by
  refine .span (m := 367 * 86400) ?_ ⟨119, 604800, by decide, by decide⟩ (by decide)
  refine Span.cons (x := lit "52") (n := 52) (c := 119) (k := 604800) (s := lit "3d") (m := 3 * 86400) ?_ (by decide)
    (by decide) ?_
  · exact ⟨[], [], lit "52", rfl, by simp, .inl rfl, by decide, by decide, by decide⟩
  · refine Span.cons (x := lit "3") (n := 3) (c := 100) (k := 86400) (s := []) (m := 0) ?_ (by decide) (by decide) .nil
    exact ⟨[], [], lit "3", rfl, by simp, .inl rfl, by decide, by decide, by decide⟩

/-- The manual page says that no time before 1970 is accepted.  A date is: its negative time, converted to an unsigned
one, is far in the future. -/
theorem C53_before1970_counterexample : TimeLibsOk exTime ∧ ∀ now,
    timeOption exTime now (lit "1969-12-31") = .ok (2 ^ 64 - 86400) := by
  refine ⟨exTime_ok, fun now => ?_⟩
  have e : tryDates exTime (lit "1969-12-31") dateFormats ⟨0, 0, 0, 0, 0, 0⟩ = some ⟨69, 11, 31, 0, 0, 0⟩ := by decide +kernel
  unfold timeOption parseTime
  rw [e]
  have : toU64 (exTime.timegm ⟨69, 11, 31, 0, 0, 0⟩) = 2 ^ 64 - 86400 := by decide +kernel
  simp only [this]
  rfl

/-- Large numbers of weeks overflow, which is undefined in C. -/
theorem C53_overflow_counterexample {T : TimeLibs} (hT : TimeLibsOk T) (now : Int) :
    timeOption T now (lit "99999999999999w") = .fault .badShift := by
  unfold timeOption
  rw [parseTime_noDate (noDate_of_noDash hT (by decide))]
  have e : (strtoll (lit "99999999999999w")).2 = lit "w" := by decide +kernel
  have u : unitsLoop ((lit "99999999999999w").length + 1) (lit "99999999999999w") 0 = .fault .badShift := by decide +kernel
  rw [e, if_neg (by decide), u]
  rfl

/-- A number beyond the range is taken for the largest one instead of being refused. -/
theorem C53_saturation_counterexample {T : TimeLibs} (hT : TimeLibsOk T) (now : Int) :
    LengthText (lit "99999999999999999999") 99999999999999999999 ∧
    timeOption T now (lit "99999999999999999999") = .ok (2 ^ 63 - 1) := by
  constructor
  · exact ⟨[], [], lit "99999999999999999999", rfl, by simp, .inl rfl, by decide, by decide +kernel, by decide +kernel⟩
  · unfold timeOption
    rw [parseTime_noDate (noDate_of_noDash hT (by decide))]
    have e : strtoll (lit "99999999999999999999") = (2 ^ 63 - 1, []) := by decide +kernel
    rw [e]
    simp only [if_true]
    rw [if_neg (by decide)]
    have : toU64 (2 ^ 63 - 1) = 2 ^ 63 - 1 := by decide +kernel
    rw [this]
    rfl

end Verif.Props
