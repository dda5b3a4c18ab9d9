import Verif.Model.ParseTime
import Verif.Spec.Arguments
import Verif.Spec.Calendar

/-!
# Specification: time arguments

The date and time texts of dnstable_lookup(1) (`/repo/man/dnstable_lookup.1.txt:146-179`).
-/

namespace Verif.Spec

/-- The last `k` decimal digits of a number. -/
def padded : Nat → Nat → Bytes
  | 0, _ => []
  | k + 1, n => padded k (n / 10) ++ [UInt8.ofNat (48 + n % 10)]

/-- `YYYY-MM-DD`. -/
def dateText (t : Stamp) : Bytes := padded 4 t.year ++ 45 :: padded 2 t.month ++ 45 :: padded 2 t.day

/-- `hh:mm:ss`. -/
def clockText (t : Stamp) : Bytes := padded 2 t.hour ++ 58 :: padded 2 t.minute ++ 58 :: padded 2 t.second

/-- The four ways to write a date and time; the first only for midnight. -/
def stampTexts (t : Stamp) : List Bytes :=
  [dateText t, dateText t ++ 32 :: clockText t, dateText t ++ 84 :: clockText t,
   dateText t ++ 84 :: clockText t ++ [90]]

/-- `s` is the text of the moment `t`. -/
def StampText (s : Bytes) (t : Stamp) : Prop :=
  ∃ i, (stampTexts t)[i]? = some s ∧ (i = 0 → t.hour = 0 ∧ t.minute = 0 ∧ t.second = 0)

/-- What is asked of `strptime` and `timegm`: each format reads its text (of years up to 9999) and none of the
longer ones to the end; a text read to the end has a digit before a dash; dates are converted rightly. -/
structure TimeLibsOk (T : TimeLibs) : Prop where
  reads : ∀ t : Stamp, t.Valid → t.year ≤ 9999 → ∀ (i : Nat) (f s : Bytes), dateFormats[i]? = some f → (stampTexts t)[i]? = some s → ∀ tt,
    T.strptime f s tt = (some [], if i = 0 then { t.tm with hour := tt.hour, min := tt.min, sec := tt.sec } else t.tm)
  whole : ∀ t : Stamp, t.Valid → t.year ≤ 9999 → ∀ (i j : Nat) (f s : Bytes), dateFormats[j]? = some f → (stampTexts t)[i]? = some s →
    j < i → ∀ tt, (T.strptime f s tt).1 ≠ some []
  dash : ∀ f ∈ dateFormats, ∀ s tt, (T.strptime f s tt).1 = some [] →
    ∃ a c b d, s = a ++ c :: b ++ 45 :: d ∧ IsDigit c
  seconds : ∀ t : Stamp, t.Valid → t.year ≤ 9999 → T.timegm t.tm = t.seconds

/-- A letter and the seconds it stands for. -/
def units : List (UInt8 × Nat) :=
  [(87, 604800), (119, 604800), (68, 86400), (100, 86400), (72, 3600), (104, 3600), (77, 60), (109, 60), (83, 1),
   (115, 1)]

/-- Positive numbers, each with its unit; seconds need none at the end.  The sum of all, in seconds. -/
inductive Span : Bytes → Nat → Prop where
  | nil : Span [] 0
  | last {s n} : LengthText s n → 0 < n → Span s n
  | cons {x n c k s m} : LengthText x n → 0 < n → (c, k) ∈ units → Span s m → Span (x ++ c :: s) (n * k + m)

/-- `Moment now s v`: the text means the time `v`, in seconds since 1970. -/
inductive Moment (now : Nat) : Bytes → Nat → Prop where
  | date {s t} : StampText s t → t.Valid → t.year ≤ 9999 → Moment now s t.seconds
  | absolute {s n} : LengthText s n → Moment now s n
  | ago {ws ds} : (∀ c ∈ ws, Blank c) → ds ≠ [] → (∀ c ∈ ds, IsDigit c) → 0 < numval ds → numval ds ≤ now →
      Moment now (ws ++ 45 :: ds) (now - numval ds)
  | span {s m} : Span s m → (∃ c k, (c, k) ∈ units ∧ c ∈ s) → m ≤ now → Moment now s (now - m)

end Verif.Spec
