import Verif.Spec.Fileset
import Verif.Spec.Times
import Verif.Model.Unaggregated

/-! # Specification: unaggregated queries over file sets -/

namespace Verif.Spec

/-- Records in the order of their keys, those of the same key in the order of their times. -/
def RecLe (x y : Rec) : Prop :=
  lexLt x.key y.key = true ∨ x.key = y.key ∧ ∀ o p, obsOf x = some o → obsOf y = some p → TimesLe o p

/-- A set of files whose rows are not merged.  As in any mtbl file, no key occurs twice in the same file. -/
structure LooseFiles (ws : List Nat) (files : List Src) (recs : Src → List Rec) : Prop where
  small : ws.length ≤ 30
  file : ∀ f ∈ files, FileOf ws f (recs f)
  strict : ∀ f ∈ files, StrictSorted f.rows

/-- The query `q` over the files, unaggregated, can be opened and delivers the records `E`, in the order of keys and
times, whatever mtbl does where its contract leaves the choice. -/
def LooseDeliver (files : List Src) (q : Query) (E : List Rec) : Prop :=
  ∀ (env : FsEnv) (w w' : World), ∃ O, openFileset { q with aggregated := false } env w w' files = .ok O ∧
    ∃ E', E'.Perm E ∧ E'.Pairwise RecLe ∧ DeliversFrom (O.sources q env) { q with aggregated := false } E'

/-- The same in the order of a text, and of keys and times among the records with the same text. -/
def LooseDeliverBy (text : Rec → Bytes) (files : List Src) (q : Query) (E : List Rec) : Prop :=
  ∀ (env : FsEnv) (w w' : World), ∃ O, openFileset { q with aggregated := false } env w w' files = .ok O ∧
    ∃ E', E'.Perm E ∧ E'.Pairwise RecLe ∧
      DeliversFrom (O.sources q env) { q with aggregated := false } (sortedBy text E')

end Verif.Spec
