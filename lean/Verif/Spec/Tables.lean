import Verif.Model.Mtbl

/-!
# Specification: tables
-/

namespace Verif.Spec

/-- Rows are ordered by key; equal keys may occur (files read without aggregation). -/
def Sorted (T : Table) : Prop := T.Pairwise fun a b => lexLe a.1 b.1 = true

/-- Rows are strictly ordered by key: every key occurs once. -/
def StrictSorted (T : Table) : Prop := T.Pairwise fun a b => lexLt a.1 b.1 = true

instance (T : Table) : Decidable (Sorted T) := inferInstanceAs (Decidable (T.Pairwise _))
instance (T : Table) : Decidable (StrictSorted T) := inferInstanceAs (Decidable (T.Pairwise _))

/-- The keys a view of a table covers. -/
def inView : View → Bytes → Bool
  | .all, _ => true
  | .exact k, x => x == k
  | .pfx p, x => p.isPrefixOf x
  | .range a b, x => lexLe a x && lexLe x b

/-- The rows of a table a view covers. -/
def rowsIn (T : Table) (V : View) : Table := T.filter fun kv => inView V kv.1

/-- The value a table holds for a key. -/
def valueOf (T : Table) (k : Bytes) : Option Bytes := (T.find? fun kv => kv.1 == k).map (·.2)

/-- A left row joined with a table: its value combined with the table's value for the same key, if
there is one. -/
def joined (combine : Bytes → Bytes → Bytes → Bytes) (B : Table) (kv : KV) : KV :=
  match valueOf B kv.1 with
  | none => kv
  | some v => (kv.1, combine kv.1 kv.2 v)

/-- Whether a key occurs in a table. -/
def hasKey (T : Table) (k : Bytes) : Bool := T.any fun kv => kv.1 == k

end Verif.Spec
