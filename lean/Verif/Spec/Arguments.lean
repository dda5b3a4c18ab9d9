import Verif.Model.Setters
import Verif.Spec.Addr
import Verif.Spec.Names
import Verif.Spec.Symbols
import Verif.Spec.Text

/-!
# Specification: the arguments of query setters

What each setter of dnstable_query(3) takes (`/repo/man/dnstable_query.3.txt:111-175`) and what it makes the query
ask for.
-/

namespace Verif.Spec

/-- What is asked of the parsing functions of libwdns and libc: addresses have 4 and 16 bytes, names are legal, lower
case keeps them so, types are 16-bit numbers. -/
structure LibsOk (L : Libs) : Prop where
  pton4 : ∀ s a, L.pton4 s = some a → a.length = 4
  pton6 : ∀ s a, L.pton6 s = some a → a.length = 16
  name : ∀ s n, L.strToName s = some n → ∃ ls, legalName ls ∧ n = wire ls
  lower : ∀ ls, legalName ls → ∃ ls', legalName ls' ∧ L.downcase (wire ls) = wire ls'
  rrtype : ∀ s, L.strToRrtype s < 65536

/-- The parts of a text between occurrences of `sep`, the empty ones left out. -/
def Pieces (sep : UInt8) (s : Bytes) (ps : List Bytes) : Prop :=
  ∃ fs : List Bytes, (∀ f ∈ fs, sep ∉ f) ∧ s = ([sep] : Bytes).intercalate fs ∧
    ps = fs.filter fun f => decide (f ≠ [])

/-- The text of an address, IPv4 or else IPv6. -/
def AddressText (L : Libs) (s a : Bytes) : Prop := L.pton4 s = some a ∨ L.pton4 s = none ∧ L.pton6 s = some a

/-- White space. -/
def Blank (c : UInt8) : Prop := c = 32 ∨ c = 9 ∨ c = 10 ∨ c = 11 ∨ c = 12 ∨ c = 13

/-- A decimal number, perhaps after white space and a plus sign. -/
def LengthText (s : Bytes) (n : Nat) : Prop :=
  ∃ ws sign ds, s = ws ++ sign ++ ds ∧ (∀ c ∈ ws, Blank c) ∧ (sign = [] ∨ sign = [43]) ∧
    ds ≠ [] ∧ (∀ c ∈ ds, IsDigit c) ∧ numval ds = n

/-- The text of a prefix: address, slash, length. -/
def PrefixText (L : Libs) (s a : Bytes) (n : Nat) : Prop :=
  45 ∉ s ∧ 47 ∈ s ∧ ∃ x y, Pieces 47 s [x, y] ∧ AddressText L x a ∧ LengthText y n

/-- The record type of addresses: A (1) or AAAA (28). -/
def addressType (a : Bytes) : Nat := if a.length = 4 then 1 else 28

/-- The name a text denotes; its letters are made small unless case matters. -/
def Named (L : Libs) (caseSensitive : Bool) (s n : Bytes) : Prop :=
  ∃ m, L.strToName s = some m ∧ n = if caseSensitive then m else L.downcase m

/-- The names for "any type". -/
def AnyType (s : Bytes) : Prop :=
  SameText s (lit "ANY") ∨ SameText s (lit "TYPE255") ∨ SameText s (lit "ANY-DNSSEC")

/-- The entry types version queries can be about. -/
def versionNames : List (Nat × Bytes) :=
  [(0, lit "rrset"), (1, lit "rrset_name"), (2, lit "rdata"), (3, lit "rdata_name")]

/-- `Asks L q s q'`: the call `s` is one the setter takes, and makes `q` ask for what `q'` asks for. -/
inductive Asks (L : Libs) (q : Query) : Setter → Query → Prop where
  | caseSensitive {b} : Asks L q (.caseSensitive b) { q with caseSensitive := b }
  | offset {n} : Asks L q (.offset n) { q with offset := n }
  | aggregated {b} : Asks L q (.aggregated b) { q with aggregated := b }
  | noTimeout : Asks L q (.timeout none) { q with lim := { q.lim with doTimeout := false } }
  | timeout {t} : Asks L q (.timeout (some t)) { q with lim := { q.lim with doTimeout := true, timeout := t } }
  | noDeadline : Asks L q (.deadline none) { q with lim := { q.lim with doDeadline := false } }
  | deadline {t} : Asks L q (.deadline (some t)) { q with lim := { q.lim with doDeadline := true, deadline := t } }
  | firstBefore {v} : Asks L q (.filterParam 0 v 8) { q with bounds := { q.bounds with firstBefore := v } }
  | firstAfter {v} : Asks L q (.filterParam 1 v 8) { q with bounds := { q.bounds with firstAfter := v } }
  | lastBefore {v} : Asks L q (.filterParam 2 v 8) { q with bounds := { q.bounds with lastBefore := v } }
  | lastAfter {v} : Asks L q (.filterParam 3 v 8) { q with bounds := { q.bounds with lastAfter := v } }
  | noRrtype : Asks L q (.rrtype none) { q with doRrtype := false }
  | anyRrtype {s} : AnyType s → Asks L q (.rrtype (some s)) { q with doRrtype := false }
  | rrtype {s t} : ¬ AnyType s → L.strToRrtype s = t → t ≠ 0 →
      Asks L q (.rrtype (some s)) { q with doRrtype := true, rrtype := t }
  | noBailiwick : q.qType = .rrset → Asks L q (.bailiwick none) { q with bailiwick := none }
  | bailiwick {s ls} : q.qType = .rrset → legalName ls → Named L false s (wire ls) →
      Asks L q (.bailiwick (some s)) { q with bailiwick := some (wire ls.reverse) }
  | noName : q.qType = .rrset ∨ q.qType = .rdataName → Asks L q (.data none) { q with name := [] }
  | name {s n} : q.qType = .rrset ∨ q.qType = .rdataName → Named L q.caseSensitive s n →
      Asks L q (.data (some s)) { q with name := n }
  | noRaw : q.qType = .rdataRaw → Asks L q (.data none) { q with rdata := none }
  | raw {s bs} : q.qType = .rdataRaw → s ≠ [] → Hex s bs →
      Asks L q (.data (some s)) { q with rdata := some bs, lenRdata := bs.length }
  | noVersion : q.qType = .version → Asks L q (.data none) q
  | version {s t} : q.qType = .version → (t, s) ∈ versionNames →
      Asks L q (.data (some s)) { q with hasVType := true, vType := UInt8.ofNat t }
  | noAddress : q.qType = .rdataIp → Asks L q (.data none) { q with ip1 := [], ip2 := [] }
  | address {s a} : q.qType = .rdataIp → 45 ∉ s → 47 ∉ s → AddressText L s a →
      Asks L q (.data (some s)) { q with ip1 := a, ip2 := [], doRrtype := true, rrtype := addressType a }
  | range {s x y a b} : q.qType = .rdataIp → 45 ∈ s → Pieces 45 s [x, y] → AddressText L x a → AddressText L y b →
      a.length = b.length →
      Asks L q (.data (some s)) { q with ip1 := a, ip2 := b, doRrtype := true, rrtype := addressType a }
  | pref {s a n lo hi} : q.qType = .rdataIp → PrefixText L s a n → n ≤ 8 * a.length →
      lo.length = a.length → hi.length = a.length →
      (∀ x : Bytes, x.length = a.length → ((lexLe lo x = true ∧ lexLe x hi = true) ↔ sameBits n x a)) →
      Asks L q (.data (some s)) { q with ip1 := lo, ip2 := hi, doRrtype := true, rrtype := addressType a }

end Verif.Spec
