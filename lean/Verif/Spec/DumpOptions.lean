import Verif.Spec.Dump
import Verif.Model.Argv

/-!
# Specification: the command line of `dnstable_dump`

dnstable_dump(1): options, one of which names a section, and a file name.  Short options can be put together, long ones
abbreviated; an option can be given a value after `=`, which turns it on or off; the last value counts.
-/

namespace Verif.Spec

/-- The sections. -/
def Sect.all : List Sect := [.rrset, .rdata, .rrsetNames, .rdataNames, .timeRange, .version, .sourceInfo]

/-- The options. -/
inductive DumpOpt where
  | json | raw | sect (s : Sect)
deriving DecidableEq, Repr

/-- Short options: `j`, `R`, `r`, `d`, `t`, `v`, `s`. -/
def dumpLetters : List (UInt8 × DumpOpt) :=
  [(106, .json), (82, .raw), (114, .sect .rrset), (100, .sect .rdata), (116, .sect .timeRange), (118, .sect .version),
   (115, .sect .sourceInfo)]

/-- Long options. -/
def dumpNames : List (Bytes × DumpOpt) :=
  [(lit "json", .json), (lit "raw", .raw), (lit "rrset_full", .sect .rrset), (lit "rdata_full", .sect .rdata),
   (lit "rrset_names", .sect .rrsetNames), (lit "rdata_names", .sect .rdataNames), (lit "time_range", .sect .timeRange),
   (lit "version_entries", .sect .version), (lit "source_info_entries", .sect .sourceInfo)]

/-- Long options for help, which end the program. -/
def helpNames : List Bytes :=
  [lit "help", lit "usage", lit "usage-short", lit "usage-long", lit "usage-all", lit "argv-display"]

/-- What an argument says: an option with its value, a request for help, a file name, something wrong; `indirect`, more
arguments in a file; `odd`, a letter that no keyboard gives. -/
inductive DumpWord where
  | use (o : DumpOpt) (value : Option Bytes)
  | help
  | file (name : Bytes)
  | wrong
  | indirect
  | odd
deriving DecidableEq, Repr

/-- A word that is none of the strange ones. -/
def DumpWord.usual : DumpWord → Bool
  | .indirect => false
  | .odd => false
  | _ => true

/-- An option and its value. -/
def splitValue (a : Bytes) : Bytes × Option Bytes :=
  match a.dropWhile (· != 61) with
  | [] => (a, none)
  | _ :: v => (a.takeWhile (· != 61), some v)

/-- A long option: the only one that begins with the name given. -/
def longWord (name : Bytes) (value : Option Bytes) : DumpWord :=
  if name = [] then .wrong
  else
    match dumpNames.filter fun p => name.isPrefixOf p.1 with
    | [(_, o)] => .use o value
    | [] =>
      if name.isPrefixOf (lit "argv-file") then .indirect
      else if helpNames.any name.isPrefixOf then .help
      else .wrong
    | _ => .wrong

/-- A letter of a short option. -/
def letterWord (value : Option Bytes) (ch : UInt8) : DumpWord :=
  match dumpLetters.find? fun p => p.1 == ch with
  | some (_, o) => .use o value
  | none =>
    if ch = 63 then .help
    else if ch = 0 ∨ ch = 251 ∨ ch = 254 then .odd
    else .wrong

/-- An argument.  After `--` none is an option. -/
def argWords (last : Bool) (a : Bytes) : List DumpWord :=
  if !last && (lit "--").isPrefixOf a then [longWord ((splitValue a).1.drop 2) (splitValue a).2]
  else if !last && (lit "-").isPrefixOf a && a.length != 1 then
    match (splitValue a).1.drop 1 with
    | [] => [.wrong]
    | l => l.map (letterWord (splitValue a).2)
  else [.file a]

/-- The arguments. -/
def commandWords : Bool → List Bytes → List DumpWord
  | _, [] => []
  | last, a :: as =>
    if !last && a == lit "--" then commandWords true as else argWords last a ++ commandWords last as

/-- Space and tab. -/
def isBlank (b : UInt8) : Bool := b == 32 || b == 9

/-- The words of a text, between blanks. -/
def blankWords (v : Bytes) : List Bytes :=
  match h : v.dropWhile isBlank with
  | [] => []
  | b :: t => (b :: t.takeWhile (!isBlank ·)) :: blankWords (t.dropWhile (!isBlank ·))
termination_by v.length
decreasing_by
  have h1 := (List.dropWhile_sublist isBlank (l := v)).length_le
  have h2 := (List.dropWhile_sublist (!isBlank ·) (l := t)).length_le
  rw [h] at h1
  simp only [List.length_cons] at h1
  omega

/-- A letter in upper case. -/
def upper (b : UInt8) : UInt8 := if 97 ≤ b.toNat ∧ b.toNat ≤ 122 then UInt8.ofNat (b.toNat - 32) else b

/-- What follows the last slash. -/
def afterSlash (path : Bytes) : Bytes := if 47 ∈ path then afterSlash' path else path
where
  /-- What follows the last slash, if there is one. -/
  afterSlash' : Bytes → Bytes
    | [] => []
    | b :: t => if 47 ∈ t then afterSlash' t else if b = 47 then t else b :: t

/-- The arguments from the environment: those in the variable `ARGV_` with the name of the program in upper case (its first
256 characters). -/
def environmentArgs (getenv : Bytes → Option Bytes) (argv0 : Bytes) : List Bytes :=
  match getenv (lit "ARGV_" ++ ((afterSlash argv0).take 256).map upper) with
  | none => []
  | some v => blankWords v

/-- The values an option is given. -/
def valuesGiven (o : DumpOpt) (ws : List DumpWord) : List (Option Bytes) :=
  ws.filterMap fun
    | .use o' v => if o' = o then some v else none
    | _ => none

/-- The option is named. -/
def named (ws : List DumpWord) (o : DumpOpt) : Bool := !(valuesGiven o ws).isEmpty

/-- A value that turns an option on: none, or one that begins with `t`, `T`, `y`, `Y` or `1`. -/
def turnsOn : Option Bytes → Bool
  | none => true
  | some v => v.head?.any [116, 84, 121, 89, 49].contains

/-- The option is on: the last value counts. -/
def turnedOn (ws : List DumpWord) (o : DumpOpt) : Bool := (valuesGiven o ws).getLast?.any turnsOn

/-- The file names. -/
def fileNames (ws : List DumpWord) : List Bytes :=
  ws.filterMap fun
    | .file f => some f
    | _ => none

/-- The sections named. -/
def sectionsNamed (ws : List DumpWord) : List Sect := Sect.all.filter fun s => named ws (.sect s)

/-- What becomes of a command line: the program ends, or runs with these options on, on this file. -/
inductive DumpStart where
  | exit (success : Bool)
  | run (on : DumpOpt → Bool) (file : Bytes)

/-- Help is given; otherwise there must be nothing wrong, one section and one file name. -/
def dumpCommand (ws : List DumpWord) : DumpStart :=
  if .help ∈ ws then .exit true
  else if .wrong ∈ ws then .exit false
  else
    match sectionsNamed ws, fileNames ws with
    | [_], [f] => .run (turnedOn ws) f
    | _, _ => .exit false

end Verif.Spec
