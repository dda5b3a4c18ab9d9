import Verif.Spec.Store
import Verif.Spec.Index
import Verif.Model.Fileset

/-! # Specification: files of a set -/

namespace Verif.Spec

/-- The times and count of an RRset or of a record seen from its data. -/
def obsOf : Rec → Option Obs
  | .rrset _ o => some o
  | .rr _ o => some o
  | _ => none

/-- The file's time range (if it has one) covers the times of all its records. -/
def Truthful (Ts : List Rec) : Prop :=
  ∀ x ∈ Ts, ∀ o, obsOf x = some o → ∀ a b, Rec.timeRange a b ∈ Ts →
    a ≤ o.first ∧ o.first ≤ b ∧ a ≤ o.last ∧ o.last ≤ b

/-- A file: stored records with a truthful time range. -/
def TruthfulFile (f : Src) : Prop := ∃ Ts, f.rows = rowsOf Ts ∧ Stored Ts ∧ Truthful Ts

/-- Records that can be merged with others of the same key: the type sets of index entries are not empty,
do not have the reserved type 0, and fall into the windows `ws` of 256 types; versions are those of the
four known kinds of entries. -/
def Mergeable (ws : List Nat) : Rec → Prop
  | .fwd _ (some s) => (∃ t, s.has t = true) ∧ s.has 0 = false ∧ ∀ t, s.has t = true → t / 256 ∈ ws
  | .rev _ (some s) => (∃ t, s.has t = true) ∧ s.has 0 = false ∧ ∀ t, s.has t = true → t / 256 ∈ ws
  | .version t _ => t.toNat ≤ 3
  | _ => True

/-- `Ts` are the records of the file `f`; its time range is truthful, its records can be merged. -/
structure FileOf (ws : List Nat) (f : Src) (Ts : List Rec) : Prop where
  rows : f.rows = rowsOf Ts
  stored : Stored Ts
  truthful : Truthful Ts
  mergeable : ∀ x ∈ Ts, Mergeable ws x

/-- The type set of an index entry. -/
def typesOf : Rec → Option TypeSet
  | .fwd _ s => s
  | .rev _ s => s
  | _ => none

/-- A set of files with records `recs`, and the records `Us` obtained by aggregating all of them, whatever
their time ranges. -/
structure Fileset (ws : List Nat) (files : List Src) (recs : Src → List Rec) (Us : List Rec) : Prop where
  small : ws.length ≤ 30
  file : ∀ f ∈ files, FileOf ws f (recs f)
  view : ∃ pick, aggregated pick (files.map (·.rows)) = .ok (rowsOf Us)
  stored : Stored Us

/-- The aggregated query `q` over the files can be opened and delivers `E`, whatever mtbl does where its
contract leaves the choice. -/
def FilesDeliver (files : List Src) (q : Query) (E : List Rec) : Prop :=
  ∀ (env : FsEnv) (w : World), ∃ F, fencedFiles q.bounds env w files = .ok F ∧
    DeliversFrom (filesetSources q.bounds env F) q E

end Verif.Spec
