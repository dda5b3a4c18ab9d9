import Verif.Model.Command
import Verif.Spec.Arguments
import Verif.Spec.ParseTime

/-!
# Specification: the command line of `dnstable_lookup`

After `/repo/man/dnstable_lookup.1.txt` and the usage message.
-/

namespace Verif.Spec

/-- The commands. -/
inductive Command where
  | rrset (owner : Bytes) (more : Option (Bytes × Option Bytes))
  | ip (address : Bytes)
  | raw (hex : Bytes) (type : Option Bytes)
  | name (name : Bytes) (type : Option Bytes)
  | version (type : Option Bytes)
  | timeRange

/-- How a command is written. -/
def Command.words : Command → List Bytes
  | .rrset o none => [lit "rrset", o]
  | .rrset o (some (t, none)) => [lit "rrset", o, t]
  | .rrset o (some (t, some b)) => [lit "rrset", o, t, b]
  | .ip a => [lit "rdata", lit "ip", a]
  | .raw h t => [lit "rdata", lit "raw", h] ++ t.toList
  | .name n t => [lit "rdata", lit "name", n] ++ t.toList
  | .version t => lit "version" :: t.toList
  | .timeRange => [lit "time_range"]

/-- The type of query. -/
def Command.kind : Command → QType
  | .rrset _ _ => .rrset
  | .ip _ => .rdataIp
  | .raw _ _ => .rdataRaw
  | .name _ _ => .rdataName
  | .version _ => .version
  | .timeRange => .timeRange

/-- The commands for records, as opposed to those for facts about the table. -/
def Command.records : Command → Bool
  | .version _ => false
  | .timeRange => false
  | _ => true

/-- The setter calls a command stands for. -/
def Command.setters : Command → List Setter
  | .rrset o none => [.data (some o), .rrtype none, .bailiwick none]
  | .rrset o (some (t, b)) => [.data (some o), .rrtype (some t), .bailiwick b]
  | .ip a => [.data (some a)]
  | .raw h none => [.data (some h)]
  | .raw h (some t) => [.data (some h), .rrtype (some t)]
  | .name n none => [.data (some n)]
  | .name n (some t) => [.data (some n), .rrtype (some t)]
  | .version t => [.data t]
  | .timeRange => []

/-- One call after the other, all taken. -/
inductive AsksAll (L : Libs) : Query → List Setter → Query → Prop where
  | nil {q} : AsksAll L q [] q
  | cons {q q1 q2 s ss} : Asks L q s q1 → AsksAll L q1 ss q2 → AsksAll L q (s :: ss) q2

/-- The option is given. -/
def given (opts : List OptEvent) (c : UInt8) : Bool := opts.any (·.ch == c)

/-- The occurrence of an option that counts: the last one. -/
def lastOf (opts : List OptEvent) (c : UInt8) : Option OptEvent := opts.reverse.find? (·.ch == c)

/-- A positive number, maybe with something behind it. -/
def Positive (s : Bytes) (n : Nat) : Prop :=
  ∃ x rest, s = x ++ rest ∧ LengthText x n ∧ 0 < n ∧ ∀ c t, rest = c :: t → ¬ IsDigit c

/-- An option is one of the documented ones, with a proper argument. -/
def ProperOption (e : OptEvent) : Prop :=
  (e.ch ∈ lit "aAbB" ∧ ∃ v, Moment e.now e.arg v ∧ v ≠ 0) ∨ (e.ch ∈ lit "itO" ∧ ∃ n, Positive e.arg n) ∨
  e.ch ∈ lit "cCjJnRsu"

/-- The time given with an option; 0 if there is none. -/
def TimeGiven (opts : List OptEvent) (c : UInt8) (v : Nat) : Prop :=
  match lastOf opts c with
  | none => v = 0
  | some e => Moment e.now e.arg v ∧ v ≠ 0

/-- The number given with an option; 0 if there is none. -/
def NumberGiven (opts : List OptEvent) (c : UInt8) (n : Nat) : Prop :=
  match lastOf opts c with
  | none => n = 0
  | some e => Positive e.arg n

/-- Options that go together: `-O` and `-R` only for records; `-n` not with `-j`, `-J`, `-R`; at most one of `-j` and
`-J`; `-R` only with one of them. -/
def Compatible (cmd : Command) (opts : List OptEvent) : Prop :=
  (cmd.records = false → given opts 79 = false ∧ given opts 82 = false) ∧
  (given opts 110 = true → given opts 106 = false ∧ given opts 74 = false ∧ given opts 82 = false) ∧
  ¬ (given opts 106 = true ∧ given opts 74 = true) ∧
  (given opts 82 = true → given opts 106 = true ∨ given opts 74 = true)

/-- The table or set file: exactly one variable is set; `-u` needs a set file; a table can be opened. -/
inductive Stores (opens : Bytes → Option Src) (E : CmdEnv) (unaggregated : Bool) : Store → Prop where
  | file {path f} : E.fname = some path → E.setfile = none → unaggregated = false → opens path = some f →
      Stores opens E unaggregated (.file f)
  | setfile {path} : E.fname = none → E.setfile = some path → Stores opens E unaggregated (.setfile path)

/-- The query a command line stands for.  (What `cliBounds` means is said by C46.) -/
def Meant (L : Libs) (cmd : Command) (opts : List OptEvent) (q : Query) : Prop :=
  ∃ (q' : Query) (t : CliTimes) (offset : Nat),
    AsksAll L { qType := cmd.kind, caseSensitive := given opts 67 } cmd.setters q' ∧
    TimeGiven opts 97 t.firstAfter ∧ TimeGiven opts 65 t.lastAfter ∧
    TimeGiven opts 98 t.lastBefore ∧ TimeGiven opts 66 t.firstBefore ∧ NumberGiven opts 79 offset ∧
    q = { q' with
      bounds := if cmd.records then cliBounds (given opts 99) t else {}
      offset := offset
      aggregated := !given opts 117 }

/-- The flags for output. -/
def flagsOf (opts : List OptEvent) : CliFlags :=
  { json := given opts 106, jsonRfc := given opts 74, addRaw := given opts 82, count := given opts 110,
    stats := opts.countP (·.ch == 115) }

/-- What a command line makes the program do. -/
def Commands (L : Libs) (opens : Bytes → Option Src) (E : CmdEnv) (opts : List OptEvent) (argv : List Bytes)
    (s : Started) : Prop :=
  ∃ cmd : Command, argv = cmd.words ∧ (∀ o m, cmd = .rrset o m → 47 ∉ o) ∧ (∀ e ∈ opts, ProperOption e) ∧
    Compatible cmd opts ∧ Stores opens E (given opts 117) s.store ∧ Meant L cmd opts s.query ∧
    NumberGiven opts 116 s.timeout ∧ NumberGiven opts 105 s.interval ∧ s.flags = flagsOf opts

end Verif.Spec
