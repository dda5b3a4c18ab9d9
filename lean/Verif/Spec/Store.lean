import Verif.Spec.Records
import Verif.Spec.Tables
import Verif.Spec.QueryRuns

/-!
# Specification: stored records and what queries ask for

A table as a list of records in the layout of dnstable-encoding(5), the entry a caller should get for
each of them, and the meaning of the query parameters, all in terms of names, types and times.
-/

namespace Verif.Spec

/-- One record of a table. -/
inductive Rec where
  /-- an RRset with its times and count -/
  | rrset (r : RRset) (o : Obs)
  /-- a resource record seen from its data -/
  | rr (r : RR) (o : Obs)
  /-- entry of the forward owner name index; the types present, if recorded -/
  | fwd (n : Name) (s : Option TypeSet)
  /-- entry of the reverse rdata name index; the types present, if recorded -/
  | rev (n : Name) (s : Option TypeSet)
  /-- the table's time range -/
  | timeRange (a b : Nat)
  /-- version number of an entry type -/
  | version (t : UInt8) (v : Nat)
  /-- description of the source -/
  | sourceInfo (s : Bytes)
deriving DecidableEq, Repr

namespace Rec

/-- Key layout. -/
def key : Rec → Bytes
  | rrset r _ => r.key
  | rr r _ => r.key
  | fwd n _ => fwdIndexKey n
  | rev n _ => revIndexKey n
  | timeRange _ _ => [254]
  | version t _ => [255, t]
  | sourceInfo s => 253 :: s

/-- Bytes of the type set of an index entry. -/
def setBytes : Option TypeSet → Bytes
  | none => []
  | some s => s.bytes

/-- Value layout. -/
def value : Rec → Bytes
  | rrset _ o => o.value
  | rr _ o => o.value
  | fwd _ s => setBytes s
  | rev _ s => setBytes s
  | timeRange a b => leb a ++ leb b
  | version _ v => leb v
  | sourceInfo _ => []

/-- The row stored for a record. -/
def row (x : Rec) : KV := (x.key, x.value)

/-- Legal record: legal names, 16-bit types, 64-bit times and counts, well-formed type sets. -/
def legal : Rec → Prop
  | rrset r o => r.legal ∧ o.legal
  | rr r o => r.legal ∧ o.legal
  | fwd n s => legalName n ∧ ∀ t, s = some t → t.wf
  | rev n s => legalName n ∧ ∀ t, s = some t → t.wf
  | timeRange a b => a < 2 ^ 64 ∧ b < 2 ^ 64
  | version _ v => v < 2 ^ 32
  | sourceInfo _ => True

/-- The entry a caller should get for a record. -/
def entry : Rec → Entry
  | rrset r o => { eType := 0, name := wire r.owner, rrtype := r.rrtype, bailiwick := wire r.bailiwick,
                   rdatas := r.rdatas, timeFirst := o.fixed.first, timeLast := o.fixed.last,
                   count := o.fixed.count }
  | rr r o => { eType := 2, name := wire r.owner, rrtype := r.rrtype, rdatas := [r.rdata],
                timeFirst := o.fixed.first, timeLast := o.fixed.last, count := o.fixed.count }
  | fwd n s => { eType := 1, name := wire n, rrtypeMap := if setBytes s = [] then none else some (setBytes s) }
  | rev n s => { eType := 3, name := wire n, rrtypeMap := if setBytes s = [] then none else some (setBytes s) }
  | timeRange a b => { eType := 254, timeFirst := a, timeLast := b }
  | version t v => { eType := 255, vType := t.toNat, version := v }
  | sourceInfo s => { eType := 253, sourceInfo := some s }

end Rec

/-- A stored table: legal records in key order (equal keys may occur: files read without
aggregation). -/
structure Stored (Ts : List Rec) : Prop where
  legal : ∀ x ∈ Ts, x.legal
  sorted : Sorted (Ts.map Rec.row)

/-- The rows of the records. -/
def rowsOf (Ts : List Rec) : Table := Ts.map Rec.row

/-! ## What queries ask for -/

/-- The four time conditions of dnstable_query_filter(3) on a record's times. -/
def inBounds (b : Bounds) (o : Obs) : Bool :=
  b.firstBefore.all (fun x => o.first ≤ x) && b.firstAfter.all (fun x => x ≤ o.first)
    && b.lastBefore.all (fun x => o.last ≤ x) && b.lastAfter.all (fun x => x ≤ o.last)

/-- RRsets wanted by owner, and if given by type, bailiwick and times. -/
def wantRrset (owner : Name → Bool) (ty : Option Nat) (bw : Option Name) (b : Bounds) : Rec → Bool
  | .rrset r o => owner r.owner && ty.all (· == r.rrtype) && bw.all (· == r.bailiwick) && inBounds b o
  | _ => false

/-- Records wanted by their data, and if given by type and times. -/
def wantRr (want : RR → Bool) (ty : Option Nat) (b : Bounds) : Rec → Bool
  | .rr r o => want r && ty.all (· == r.rrtype) && inBounds b o
  | _ => false

/-- A name whose first label is one of the two wildcards. -/
def startsWild (n : Name) : Prop := ∃ c m, n = [c] :: m ∧ (c = 42 ∨ c = 43)

/-- A name whose last label is one of the two wildcards. -/
def endsWild (n : Name) : Prop := ∃ c m, n = m ++ [[c]] ∧ (c = 42 ∨ c = 43)

/-- A name whose last label ends like a wildcard label: length byte 1, then `*` or `+`. -/
def endsLikeWild (n : Name) : Prop := ∃ p c m, n = m ++ [p ++ [1, c]] ∧ (c = 42 ∨ c = 43)

/-- A name that is not (read as) a wildcard query. -/
def PlainName (n : Name) : Prop := ¬ startsWild n ∧ ¬ endsWild n ∧ ¬ endsLikeWild n

/-- Names asked for by `*.dom` (`c = '*'`): `dom` and everything below it; by `+.dom` (`c = '+'`):
exactly one label in front of `dom`. -/
def leftWild (c : UInt8) (dom : Name) (n : Name) : Bool :=
  if c = 43 then n.length == dom.length + 1 && dom.isSuffixOf n else dom.isSuffixOf n

/-- Names asked for by `front.*`: those starting with the labels of `front`; by `front.+`: exactly one
more label. -/
def rightWild (c : UInt8) (front : Name) (n : Name) : Bool :=
  if c = 43 then n.length == front.length + 1 && front.isPrefixOf n else front.isPrefixOf n

/-- The parameters of a query besides the data asked for. -/
structure Ask where
  ty : Option Nat := none
  bw : Option Name := none
  times : Bounds := {}
  offset : Nat := 0
  lim : Limits := {}

/-- Parameters the setters accept: a 16-bit type other than ANY (255), a legal bailiwick. -/
def Ask.legal (a : Ask) : Prop := (∀ t, a.ty = some t → t < 65536 ∧ t ≠ 255) ∧ ∀ n, a.bw = some n → legalName n

/-- The query object with these parameters. -/
def Ask.query (a : Ask) (kind : QType) (name : Bytes) : Query :=
  { qType := kind, name := name, doRrtype := a.ty.isSome, rrtype := a.ty.getD 0,
    bailiwick := a.bw.map fun n => wire n.reverse, bounds := a.times, offset := a.offset, lim := a.lim }

/-- The query `q` over the sources `S` can be opened, and whatever calls are then made, with whatever
time limits and clock, they deliver the records `E` after the first `q.offset` of them, in order, each
once, and then report the end (see `Returns`). -/
def DeliversFrom (S : Sources) (q : Query) (E : List Rec) : Prop :=
  ∃ p, initKind q = .ok p ∧
    ∀ (ls : List Limits) (w : World), w.offset = q.offset →
      (q.lim.active = true → ∀ l ∈ ls, l.active = true) →
      let B := assemble q S p
      Returns q.lim.active ((E.drop q.offset).map Rec.entry) (queryRun q B ls B.start w)

/-- The same for the query `q` over the table `Ts`. -/
def Delivers (Ts : List Rec) (q : Query) (E : List Rec) : Prop :=
  ∀ sf : View → Bytes → Bool, DeliversFrom (plainSources (curM (rowsOf Ts) sf)) q E

end Verif.Spec
