import Verif.Model.StatsText
import Verif.Spec.Symbols
import Verif.Spec.QueryRuns
import Verif.Spec.Text
import Verif.Spec.Json

/-!
# Specification: the statistics `dnstable_lookup` writes with `-s`
-/

namespace Verif.Spec

/-- With one `-s`: for every category, the sum over the stages that count it; `get` is the value of a counter. -/
def summaryRows (get : Nat → Nat → Option Nat) : List (Bytes × Nat) :=
  categoryNames.map fun c => (c.2, (stageNames.filterMap fun s => get s.1 c.1).sum % 2 ^ 64)

/-- With more than one `-s`: every counter there is, with the names of its stage and its category. -/
def detailRows (get : Nat → Nat → Option Nat) : List (Bytes × Nat) :=
  stageNames.flatMap fun s => categoryNames.filterMap fun c =>
    (get s.1 c.1).map fun n => (s.2 ++ lit " " ++ c.2, n % 2 ^ 64)

/-- One line: a label in a column of width `w`, a colon, and a value. -/
def ColumnLine (w : Nat) (row : Bytes × (Bytes → Prop)) (line : Bytes) : Prop :=
  ∃ v, row.2 v ∧ line = row.1 ++ List.replicate (w - row.1.length) 32 ++ lit " : " ++ v ++ [10]

/-- The text consists of these lines. -/
def Columns (w : Nat) (rows : List (Bytes × (Bytes → Prop))) (text : Bytes) : Prop :=
  ∃ lines : List Bytes, text = lines.flatten ∧ Aligned (ColumnLine w) rows lines

/-- A time of `d` nanoseconds, in seconds with nine decimals. -/
def Elapsed (d : Nat) (v : Bytes) : Prop :=
  ∃ s f : Bytes, v = s ++ 46 :: f ++ lit "s" ∧ Numeral s (d / 1000000000) ∧ f.length = 9 ∧
    (∀ c ∈ f, IsDigit c) ∧ numval f = d % 1000000000

/-- An empty line, the counters, an empty line, the number of entries, the time; the values are aligned, in
a column as wide as the longest label. -/
def Statistics (rows : List (Bytes × Nat)) (entries d : Nat) (text : Bytes) : Prop :=
  ∃ w body tail, text = 10 :: body ++ 10 :: tail ∧ 7 ≤ w ∧ (∀ r ∈ rows, r.1.length ≤ w) ∧
    (∃ r ∈ rows, r.1.length = w) ∧
    Columns w (rows.map fun r => (r.1, fun v => Numeral v r.2)) body ∧
    Columns w [(lit "entries", fun v => Numeral v entries), (lit "elapsed", Elapsed d)] tail

/-- What `dnstable_iter_get_count` reports of a counter. -/
def reading (it : IterStats) (stage category : Nat) : Option Nat :=
  let r := iterGetCount (some it) stage category false (some 0)
  if r.found then some r.count else none

/-- The rows written. -/
def statsRows (stats : Nat) (it : IterStats) : List (Bytes × Nat) :=
  if stats > 1 then detailRows (reading it) else summaryRows (reading it)

/-- A block of statistics: the number of the call of `dnstable_iter_next` before it, whether this call timed out, the
world in which the clock is read for it, and the number of entries. -/
structure Interim where
  call : Nat
  late : Bool
  world : World
  count : Nat

/-- How the program stands after the call before a block: over, or, after a timeout and only if there are intervals,
still running. -/
def AfterBlock (late : Bool) (intervals : Prop) {B : Built} : Dump B → Prop
  | .running _ => late = true ∧ intervals
  | .ended r _ => r = if late then .timeout else .failure
  | .fault _ => False

/-- The run is over after its last block. -/
def LastBlock {B : Built} (bs : List Interim) : Dump B → Prop
  | .ended _ d => ∃ b, bs.getLast? = some b ∧ b.count = d.count ∧ b.world.stats = d.world.stats ∧ b.world.tick ≤ d.world.tick
  | _ => True

end Verif.Spec
