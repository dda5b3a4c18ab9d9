import Verif.Model.Program
import Verif.Spec.Command
import Verif.Spec.LookupRun
import Verif.Spec.Ranges
import Verif.Spec.Unaggregated
import Verif.Props.Lookup
import Verif.Props.TextForm
import Verif.Props.Json

/-!
# Specification: what `dnstable_lookup` answers

In terms of the records of the tables, the command line and the output.
-/

namespace Verif.Spec
open Verif.Props (Strictly Loosely Printable Presentable)

/-- The records a program is to answer from: those of the table; those of the aggregated view of the tables of the set
file; or, with `-u`, those of all its tables.  Each table has the property `I`. -/
inductive ContentsOf (D : Disk) (I : List Rec → Prop) : Store → Bool → List Rec → Prop where
  | file {f Ts} : f.rows = rowsOf Ts → Stored Ts → I Ts → ContentsOf D I (.file f) true Ts
  | merged {path ws recs Us} : Fileset ws (D.members path) recs Us → (∀ f ∈ D.members path, I (recs f)) →
      ContentsOf D I (.setfile path) true Us
  | loose {path ws recs} : LooseFiles ws (D.members path) recs → (∀ f ∈ D.members path, I (recs f)) →
      ContentsOf D I (.setfile path) false ((D.members path).flatMap recs)

/-- The same, nothing being asked of the tables. -/
abbrev Contents (D : Disk) : Store → Bool → List Rec → Prop := ContentsOf D fun _ => True

/-- The order of the answers: that of the records, which for the records of several tables is that of their keys and
times. -/
def Arranged (aggregated : Bool) (xs ys : List Rec) : Prop :=
  if aggregated then xs = ys else xs.Perm ys ∧ xs.Pairwise RecLe

/-- The same for answers found by a name index: in the order of a text, those with the same text as above. -/
def ArrangedBy (text : Rec → Bytes) (aggregated : Bool) (xs ys : List Rec) : Prop :=
  ∃ zs, Arranged aggregated zs ys ∧ xs = sortedBy text zs

/-- In the index that a query within the bounds goes by, no type set of an `entry` ends right before the type `t`
(`C20_overread_counterexample`). -/
def IndexReaches (D : Disk) (entry : Name → Option TypeSet → Rec) (b : Bounds) (t : Nat) (aggregated : Bool) : Store → Prop
  | .file f => ∀ n s, (entry n (some s)).legal → (entry n (some s)).row ∈ f.rows → ¬ endsBefore t s
  | .setfile path =>
    if aggregated then
      ∀ w F, fencedFiles b D.env w (D.members path) = .ok F →
        ∀ n s, (entry n (some s)).legal → (entry n (some s)).row ∈ F.kept → ¬ endsBefore t s
    else
      ∀ w F, looseFiles b D.env w w (D.members path) = .ok F →
        ∀ n s, (entry n (some s)).legal → (entry n (some s)).row ∈ F.index → ¬ endsBefore t s

/-- The times given with `-a`, `-A`, `-b`, `-B`; 0 for those not given. -/
structure TimesGiven (opts : List OptEvent) (t : CliTimes) : Prop where
  firstAfter : TimeGiven opts 97 t.firstAfter
  lastAfter : TimeGiven opts 65 t.lastAfter
  lastBefore : TimeGiven opts 98 t.lastBefore
  firstBefore : TimeGiven opts 66 t.firstBefore

/-- The times of a record are those asked for. -/
def InTimes (opts : List OptEvent) (t : CliTimes) (o : Obs) : Prop :=
  if given opts 99 then Strictly t o else Loosely t o

/-- The type asked for; `none` for any. -/
inductive TypeText (L : Libs) : Option Bytes → Option Nat → Prop where
  | absent : TypeText L none none
  | any {s} : AnyType s → TypeText L (some s) none
  | type {s t} : ¬ AnyType s → L.strToRrtype s = t → t ≠ 0 → TypeText L (some s) (some t)

/-- The bailiwick asked for; `none` for any. -/
inductive BailiwickText (L : Libs) : Option Bytes → Option Name → Prop where
  | absent : BailiwickText L none none
  | name {s n} : legalName n → Named L false s (wire n) → BailiwickText L (some s) (some n)

/-- The addresses of `len` bytes that an address, a range or a prefix denotes. -/
inductive AddressesOf (L : Libs) (s : Bytes) : (len : Nat) → (Bytes → Prop) → Prop where
  | one {a} : 45 ∉ s → 47 ∉ s → AddressText L s a → AddressesOf L s a.length (· = a)
  | range {x y a b} : 45 ∈ s → Pieces 45 s [x, y] → AddressText L x a → AddressText L y b → a.length = b.length →
      AddressesOf L s a.length (fun z => addrVal a ≤ addrVal z ∧ addrVal z ≤ addrVal b)
  | pref {a n} : PrefixText L s a n → n ≤ 8 * a.length → AddressesOf L s a.length (sameBits n · a)

/-- `ys` are those of the records with the property `P`. -/
def Selected (P : Rec → Prop) (Us ys : List Rec) : Prop :=
  ∃ f : Rec → Bool, (∀ x ∈ Us, f x = true ↔ P x) ∧ ys = Us.filter f

/-- What the options make of the records written. -/
def Output (X : Texts) (F : CliFlags) (ys : List Rec) (s : Bytes) : Prop :=
  if F.count then s = []
  else if F.json || F.jsonRfc then JsonLines X ⟨F.json, false, F.addRaw⟩ ys s
  else HasLines s (ys.flatMap (outputLines X))

/-- The record can be written. -/
def Writable (F : CliFlags) (x : Rec) : Prop :=
  if F.count then True else if F.json || F.jsonRfc then Presentable ⟨F.json, false, F.addRaw⟩ x else Printable x

/-- The last lines on the standard error stream, after `n` records. -/
def Closing (F : CliFlags) (timedOut : Bool) (n : Nat) (s : Bytes) : Prop :=
  if F.json || F.jsonRfc then s = []
  else ∃ num, amount n num ∧
    s = (if timedOut then lit ";;; timed out\n" else []) ++ (lit ";;; Dumped " ++ num ++ lit " entries.\n")

/-- What is to be seen of a program that answers with the records `xs`: at any time some of them, from the first one
on; at the end all of them; or, if a clock reading has come `timeout` seconds after the first one, maybe not all. -/
def Reports (timeout : Nat) (X : Texts) (F : CliFlags) (xs : List Rec) (w : World) : Progress → Prop
  | .refused => False
  | .fault _ => False
  | .running out count => ∃ k ≤ xs.length, Output X F (xs.take k) out ∧ count = k % 2 ^ 64
  | .done false out closing _ => Output X F xs out ∧ Closing F false (xs.length % 2 ^ 64) closing
  | .done true out closing w' =>
    timeout ≠ 0 ∧ (∃ i, w.tick < i ∧ i < w'.tick ∧ ns (w.clock w.tick) + seconds timeout ≤ ns (w.clock i)) ∧
    ∃ k ≤ xs.length, Output X F (xs.take k) out ∧ Closing F true (k % 2 ^ 64) closing

/-- A program is bound to end: there are no time limits, or the time given with `-t` is over from some clock reading on. -/
def BoundToEnd (timeout interval : Nat) (w : World) : Prop :=
  timeout = 0 ∧ interval = 0 ∨
    timeout ≠ 0 ∧ ∃ i0, ∀ i, i0 ≤ i → ns (w.clock w.tick) + seconds timeout < ns (w.clock i)

/-- The program has come to its end. -/
def AtEnd : Progress → Prop
  | .done _ _ _ _ => True
  | _ => False

/-- The names of owners a name asks for, if the index is not needed. -/
inductive OwnersOf : Name → (Name → Bool) → Prop where
  | left {c dom} : c = 42 ∨ c = 43 → OwnersOf ([c] :: dom) (leftWild c dom)
  | exact {n} : PlainName n → OwnersOf n (· == n)

/-- The names in record data a name asks for, if the index is not needed. -/
inductive NamesOf : Name → (Name → Bool) → Prop where
  | right {c front} : c = 42 ∨ c = 43 → NamesOf (front ++ [[c]]) (rightWild c front)
  | exact {n} : PlainName n → NamesOf n (· == n)

end Verif.Spec
