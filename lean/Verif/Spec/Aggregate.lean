import Verif.Spec.Tables
import Verif.Spec.Records
import Verif.Props.Union
import Verif.Props.Merge

/-! # Specification: values that files may hold, and the values of a key -/

namespace Verif.Spec
open Verif

/-- All values stored for a key, file by file. -/
def valuesOf (k : Bytes) (files : List Table) : List Bytes :=
  (files.flatten.filter fun kv => kv.1 == k).map (·.2)

/-- `v` is a value as dnstable-encoding(5) lays it out for the key: a triplet for RRsets and rdata;
for name-index entries a non-empty set of record types, in the form a writer stores, or the legacy empty
value; a pair of times or the empty value for the time range; a 32-bit number or the empty value for the
version of a known kind; anything for other keys.  The record types of index entries (never the reserved
type 0) fall into the windows `ws` of 256 types. -/
def Encoded (ws : List Nat) (k v : Bytes) : Prop :=
  (k.head? = some 0 ∨ k.head? = some 2 →
    ∃ x : Nat × Nat × Nat, (x.1 < 2 ^ 64 ∧ x.2.1 < 2 ^ 64 ∧ x.2.2 < 2 ^ 64) ∧ tripletPack x.1 x.2.1 x.2.2 = v) ∧
  (k.head? = some 1 ∨ k.head? = some 3 →
    ∃ x : Option (Nat → Bool), (∀ p, x = some p →
      (∃ t, t < 65536 ∧ p t = true) ∧ p 0 = false ∧ ∀ t, t < 65536 → p t = true → t / 256 ∈ ws) ∧
      Props.indexValue x = v) ∧
  (k = [254] → ∃ x : Option (Nat × Nat), (∀ p, x = some p → p.1 < 2 ^ 64 ∧ p.2 < 2 ^ 64) ∧ rangeValue x = v) ∧
  (∀ vt : UInt8, k = [255, vt] → vt.toNat ≤ 3 →
    ∃ x : Option Nat, (∀ p, x = some p → p < 2 ^ 32) ∧ versionValue x = v)

end Verif.Spec
