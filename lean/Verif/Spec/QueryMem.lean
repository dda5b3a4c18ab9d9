import Verif.Model.QueryMem

/-!
# Specification: what a query says about its errors

dnstable_query(3): if a function returns failure, `dnstable_query_get_error()` gives the text of the error.
-/

namespace Verif.Spec

/-- The text `data` is an address, of either family. -/
def IsAddress (L : Libs) (data : Bytes) : Prop := (L.pton4 data).isSome ∨ (L.pton6 data).isSome

/-- The length in bytes of the address that `data` is. -/
def addressLength (L : Libs) (data : Bytes) : Option Nat :=
  match L.pton4 data with
  | some a => some a.length
  | none => (L.pton6 data).map List.length

/-- The failed calls that have an error text, and the text. -/
inductive Complains (L : Libs) (q : Query) : Setter → Bytes → Prop
  /-- a bailiwick for a query of another kind -/
  | bailiwickKind (s) : q.qType ≠ .rrset → Complains L q (.bailiwick s) (lit "bailiwick filtering not supported")
  /-- a bailiwick that is not a name -/
  | bailiwickName (s) : q.qType = .rrset → L.strToName s = none →
      Complains L q (.bailiwick (some s)) (lit "wdns_str_to_name() failed")
  /-- search data that is not a name -/
  | dataName (s) : q.qType = .rrset ∨ q.qType = .rdataName → L.strToName s = none →
      Complains L q (.data (some s)) (lit "wdns_str_to_name() failed")
  /-- search data that is not an address -/
  | address (s) : q.qType = .rdataIp → 45 ∉ s → 47 ∉ s → ¬ IsAddress L s →
      Complains L q (.data (some s)) (lit "inet_pton() failed")
  /-- a range whose first or last address is none -/
  | rangeAddress (s a b) : q.qType = .rdataIp → 45 ∈ s → tokens 45 s = [a, b] → ¬ (IsAddress L a ∧ IsAddress L b) →
      Complains L q (.data (some s)) (lit "inet_pton() failed")
  /-- a range from an address of one family to one of the other -/
  | rangeFamily (s a b) : q.qType = .rdataIp → 45 ∈ s → tokens 45 s = [a, b] → IsAddress L a → IsAddress L b →
      addressLength L a ≠ addressLength L b →
      Complains L q (.data (some s)) (lit "address family mismatch in IP range")
  /-- anything wrong with a prefix -/
  | «prefix» (s) : q.qType = .rdataIp → 45 ∉ s → 47 ∈ s →
      Complains L q (.data (some s)) (lit "unable to parse IP prefix")
  /-- an unknown record type -/
  | rrtype (s) : Complains L q (.rrtype (some s)) (lit "unknown rrtype mnemonic")

/-- The failed calls that have no error text. -/
inductive Silent (L : Libs) (q : Query) : Setter → Prop
  /-- raw data that is not a sequence of bytes in hexadecimal -/
  | raw (s) : q.qType = .rdataRaw → Silent L q (.data (some s))
  /-- a range that does not consist of two parts -/
  | rangeParts (s) : q.qType = .rdataIp → 45 ∈ s → (tokens 45 s).length ≠ 2 → Silent L q (.data (some s))
  /-- an unknown kind of entry -/
  | version (s) : q.qType = .version → Silent L q (.data (some s))
  /-- search data for a query of a kind that has none -/
  | dataKind (s) : q.qType = .timeRange ∨ q.qType = .sourceInfo → Silent L q (.data s)
  /-- a filter parameter of unknown kind or wrong size -/
  | parameter (p v n) : Silent L q (.filterParam p v n)
  /-- a bailiwick that the name parser accepts but that is no name; does not happen, given the contract of the parser -/
  | bailiwick (s n) : q.qType = .rrset → L.strToName s = some n → (∀ r, reverseName (L.downcase n) ≠ .ok r) →
      Silent L q (.bailiwick (some s))

/-- `Told A L q₀ ss q e`: after the setter calls `ss` on a new query `q₀`, the query is `q` and the text of its latest
error is `e`. -/
inductive Told (A : Arith) (L : Libs) (q₀ : Query) : List Setter → Query → Bytes → Prop
  | new : Told A L q₀ [] q₀ (lit "unknown error")
  | success (ss q e s q') : Told A L q₀ ss q e → applySetter A L q s = .ok (q', true) → Told A L q₀ (ss ++ [s]) q' e
  | failure (ss q e s q' e') : Told A L q₀ ss q e → applySetter A L q s = .ok (q', false) → Complains L q s e' →
      Told A L q₀ (ss ++ [s]) q' e'
  | unexplained (ss q e s q') : Told A L q₀ ss q e → applySetter A L q s = .ok (q', false) → Silent L q s →
      Told A L q₀ (ss ++ [s]) q' e

/-- The setter calls among the calls. -/
def settersOf (cs : List QueryCall) : List Setter :=
  cs.filterMap fun c => match c with | .set s => some s | .getError => none

/-- None of the setter calls, started from the query `q`, fails with an error text. -/
def Quiet (A : Arith) (L : Libs) (q : Query) : List Setter → Prop
  | [] => True
  | s :: ss => ∃ q' b, applySetter A L q s = .ok (q', b) ∧ (b = false → Silent L q s) ∧ Quiet A L q' ss

end Verif.Spec
