import Verif.Spec.DumpOptions
import Verif.Lemmas.Format

/-! Lemmas about the command line of `dnstable_dump`: the array holds what the words say. -/

namespace Verif
open Spec

/-- What the array of `dnstable_dump` holds. -/
structure Grid where
  used : DumpOpt → Bool
  on : DumpOpt → Bool
  file : Option Bytes

/-- The array with that. -/
def Grid.list (a : Grid) : List ArgEntry :=
  let opt := fun (short : UInt8) (long : Bytes) (o : DumpOpt) =>
    ({ short := short, long := some long, type := .bool, used := a.used o, on := a.on o } : ArgEntry)
  [opt 106 (lit "json") .json, opt 82 (lit "raw") .raw, opt 114 (lit "rrset_full") (.sect .rrset), { short := argXor },
   opt 100 (lit "rdata_full") (.sect .rdata), { short := argXor },
   opt 0 (lit "rrset_names") (.sect .rrsetNames), { short := argXor },
   opt 0 (lit "rdata_names") (.sect .rdataNames), { short := argXor },
   opt 116 (lit "time_range") (.sect .timeRange), { short := argXor },
   opt 118 (lit "version_entries") (.sect .version), { short := argXor },
   opt 115 (lit "source_info_entries") (.sect .sourceInfo),
   { short := argMand, type := .string, used := a.file.isSome, text := a.file }, { short := argLast }]

/-- Where an option is in the array. -/
def optIndex : DumpOpt → Nat
  | .json => 0
  | .raw => 1
  | .sect .rrset => 2
  | .sect .rdata => 4
  | .sect .rrsetNames => 6
  | .sect .rdataNames => 8
  | .sect .timeRange => 10
  | .sect .version => 12
  | .sect .sourceInfo => 14

/-- The option is used. -/
def Grid.use (a : Grid) (o : DumpOpt) (v : Option Bytes) : Grid :=
  { used := fun o' => if o' = o then true else a.used o'
    on := fun o' => if o' = o then turnsOn v else a.on o'
    file := a.file }

/-- Another section has been used. -/
def Grid.clash (a : Grid) : DumpOpt → Bool
  | .sect s => Sect.all.any fun s' => s' != s && a.used (.sect s')
  | _ => false

theorem Grid.length_list (a : Grid) : a.list.length = 17 := rfl

theorem dumpGrid_list : dumpGrid = Grid.list ⟨fun _ => false, fun _ => false, none⟩ := rfl

theorem checkOr_list (a : Grid) (o : DumpOpt) : checkOr a.list (optIndex o) = .ok (a.clash o) := by
  rcases o with _ | _ | s
  · rfl
  · rfl
  · cases s <;>
    simp [checkOr, optIndex, Grid.list, orBelow, orAbove, ArgEntry.isOr, argXor, argOr, argLast, argMand, Grid.clash, Sect.all] <;>
    cases a.used (.sect .rrset) <;> cases a.used (.sect .rdata) <;> cases a.used (.sect .rrsetNames) <;>
    cases a.used (.sect .rdataNames) <;> cases a.used (.sect .timeRange) <;> cases a.used (.sect .version) <;>
    cases a.used (.sect .sourceInfo) <;> rfl

/-- The queue of entries that waited for a value, none of which waits any longer, and the number of elements allocated for it. -/
structure Desk where
  room : Nat
  queue : List (Option Nat) := []

/-- The state while options are read. -/
def ArgState.at (a : Grid) (room : Desk) (okay : Bool) (stdin : Option Bytes) : ArgState :=
  { grid := a.list, queue := room.queue, tail := room.queue.length, room := room.room, okay := okay, stdin := stdin }

theorem Grid.mark_list (a : Grid) (o : DumpOpt) :
    ∃ e, a.list[optIndex o]? = some e ∧ e.type = .bool ∧
      (∀ t, a.list.set (optIndex o) { e with used := true, on := t } =
        Grid.list ⟨fun o' => if o' = o then true else a.used o', fun o' => if o' = o then t else a.on o', a.file⟩) ∧
      a.list.set (optIndex o) { e with used := true } =
        Grid.list ⟨fun o' => if o' = o then true else a.used o', a.on, a.file⟩ := by
  rcases o with _ | _ | s
  · exact ⟨_, rfl, rfl, fun _ => rfl, rfl⟩
  · exact ⟨_, rfl, rfl, fun _ => rfl, rfl⟩
  · cases s <;> exact ⟨_, rfl, rfl, fun _ => rfl, rfl⟩

theorem stringToValue_at (a : Grid) (room : Desk) (okay : Bool) (stdin : Option Bytes) (o : DumpOpt) (v : Option Bytes) :
    stringToValue (.at a room okay stdin) (optIndex o) v =
      .at ⟨a.used, fun o' => if o' = o then turnsOn v else a.on o', a.file⟩ room okay stdin := by
  rcases o with _ | _ | s
  · cases v <;> rfl
  · cases v <;> rfl
  · cases s <;> cases v <;> rfl

theorem Grid.clash_mark (a : Grid) (o : DumpOpt) (f : DumpOpt → Bool) :
    Grid.clash ⟨fun o' => if o' = o then true else a.used o', f, a.file⟩ o = a.clash o := by
  cases o with
  | sect s => cases s <;> simp [Grid.clash, Sect.all]
  | _ => rfl

theorem doArg_at (a : Grid) (room : Desk) (okay : Bool) (stdin : Option Bytes) (o : DumpOpt) (v : Option Bytes) :
    doArg {} (.at a room okay stdin) (optIndex o) v = .ok (.at (a.use o v) room (okay && !a.clash o) stdin) := by
  obtain ⟨e, he, ht, -, hs'⟩ := a.mark_list o
  have hc := checkOr_list ⟨fun o' => if o' = o then true else a.used o', a.on, a.file⟩ o
  rw [a.clash_mark] at hc
  have hb : (if a.clash o = true
      then (ArgState.at ⟨fun o' => if o' = o then true else a.used o', a.on, a.file⟩ room okay stdin).bad
      else .at ⟨fun o' => if o' = o then true else a.used o', a.on, a.file⟩ room okay stdin) =
      .at ⟨fun o' => if o' = o then true else a.used o', a.on, a.file⟩ room (okay && !a.clash o) stdin := by
    cases a.clash o <;> simp [ArgState.at, ArgState.bad]
  have he' : (ArgState.at a room okay stdin).grid[optIndex o]? = some e := he
  unfold doArg
  rw [he']
  simp only [Bool.not_true, Bool.false_and, Bool.false_eq_true, if_false]
  have hg : ({ ArgState.at a room okay stdin with
      grid := (ArgState.at a room okay stdin).grid.set (optIndex o) { e with used := true } } : ArgState) =
      .at ⟨fun o' => if o' = o then true else a.used o', a.on, a.file⟩ room okay stdin := by
    show ArgState.mk (a.list.set (optIndex o) { e with used := true }) room.queue room.queue.length room.room okay stdin = _
    rw [hs']
    rfl
  have hl : (ArgState.at a room okay stdin).grid.set (optIndex o) { e with used := true } =
      Grid.list ⟨fun o' => if o' = o then true else a.used o', a.on, a.file⟩ := hs'
  rw [hg, hl, hc]
  show (if _ then _ else _) = _
  rw [hb, ht]
  simp only [Bool.true_and, beq_self_eq_true, if_true]
  cases v with
  | none =>
    simp only [Option.isSome_none, Bool.false_eq_true, if_false]
    rw [stringToValue_at]
    rfl
  | some v =>
    simp only [Option.isSome_some, if_true]
    rw [stringToValue_at]
    rfl

theorem shortMatch_list (a : Grid) (ch : UInt8) : shortMatch a.list ch = shortMatch dumpGrid ch := by
  have hl : a.list.map ArgEntry.short = dumpGrid.map ArgEntry.short := rfl
  have hp : ∀ (g : List ArgEntry) (i : Nat), ((g[i]?).any fun e => e.short != argLast && e.short == ch) =
      (((g.map ArgEntry.short)[i]?).any fun c => c != argLast && c == ch) := by
    intro g i
    rw [List.getElem?_map]
    cases g[i]? <;> rfl
  unfold shortMatch
  simp only [hp]
  rw [hl]
  rfl

theorem longMatches_list (a : Grid) (n : Bytes) : longMatches a.list n = longMatches dumpGrid n := by
  have hl : (a.list.map fun e => (e.short, e.long)) = dumpGrid.map fun e => (e.short, e.long) := rfl
  have hp : ∀ (g : List ArgEntry) (i : Nat), ((g[i]?).any fun e => e.short != argLast && e.long.any n.isPrefixOf) =
      (((g.map fun e => (e.short, e.long))[i]?).any fun c => c.1 != argLast && c.2.any n.isPrefixOf) := by
    intro g i
    rw [List.getElem?_map]
    cases g[i]? <;> rfl
  unfold longMatches
  simp only [hp]
  rw [hl]
  rfl

theorem longMatches_dump (n : Bytes) :
    longMatches dumpGrid n = (dumpNames.filter fun p => n.isPrefixOf p.1).map fun p => optIndex p.2 := by
  have h1 : longMatches dumpGrid n = ((List.range 17).filter fun i => [0, 1, 2, 4, 6, 8, 10, 12, 14].contains i).filter
      fun i => (dumpGrid[i]?).any fun e => e.short != argLast && e.long.any n.isPrefixOf := by
    rw [List.filter_filter]
    unfold longMatches
    apply List.filter_congr
    intro i hi
    have : i < 17 := List.mem_range.1 hi
    have : i = 0 ∨ i = 1 ∨ i = 2 ∨ i = 3 ∨ i = 4 ∨ i = 5 ∨ i = 6 ∨ i = 7 ∨ i = 8 ∨ i = 9 ∨ i = 10 ∨ i = 11 ∨ i = 12 ∨
      i = 13 ∨ i = 14 ∨ i = 15 ∨ i = 16 := by omega
    rcases this with rfl | rfl | rfl | rfl | rfl | rfl | rfl | rfl | rfl | rfl | rfl | rfl | rfl | rfl | rfl | rfl | rfl <;>
      simp [dumpGrid]
  have h2 : ((List.range 17).filter fun i => [0, 1, 2, 4, 6, 8, 10, 12, 14].contains i) =
      dumpNames.map fun p => optIndex p.2 := by decide
  rw [h1, h2, List.filter_map]
  rfl

theorem shortMatch_dump : ∀ ch : UInt8, ¬(ch = 0 ∨ ch = 251 ∨ ch = 254) →
    shortMatch dumpGrid ch = (dumpLetters.find? fun p => p.1 == ch).map fun p => optIndex p.2 := by
  apply u8_all
  decide +kernel

/-- The array after words. -/
def gridOf (ws : List DumpWord) : Grid := ⟨named ws, turnedOn ws, (fileNames ws).head?⟩

/-- Nothing has been wrong so far. -/
def fineSoFar (ws : List DumpWord) : Bool :=
  !ws.contains .wrong && decide ((fileNames ws).length ≤ 1) && decide ((sectionsNamed ws).length ≤ 1)

/-- The state after words. -/
def stateOf (room : Desk) (stdin : Option Bytes) (ws : List DumpWord) : ArgState :=
  .at (gridOf ws) room (fineSoFar ws) stdin

theorem stateOf_nil (n : Nat) (stdin : Option Bytes) :
    stateOf ⟨n, []⟩ stdin [] = { grid := dumpGrid, room := n, stdin := stdin } := rfl

theorem valuesGiven_append (o : DumpOpt) (ws ws' : List DumpWord) :
    valuesGiven o (ws ++ ws') = valuesGiven o ws ++ valuesGiven o ws' := List.filterMap_append

theorem fileNames_append (ws ws' : List DumpWord) : fileNames (ws ++ ws') = fileNames ws ++ fileNames ws' :=
  List.filterMap_append

theorem named_use (ws : List DumpWord) (o : DumpOpt) (v : Option Bytes) :
    named (ws ++ [.use o v]) = fun o' => if o' = o then true else named ws o' := by
  funext o'
  unfold named
  rw [valuesGiven_append]
  by_cases h : o' = o
  · simp [valuesGiven, h]
  · simp [valuesGiven, h, Ne.symm h]

theorem turnedOn_use (ws : List DumpWord) (o : DumpOpt) (v : Option Bytes) :
    turnedOn (ws ++ [.use o v]) = fun o' => if o' = o then turnsOn v else turnedOn ws o' := by
  funext o'
  unfold turnedOn
  rw [valuesGiven_append]
  by_cases h : o' = o
  · simp [valuesGiven, h]
  · simp [valuesGiven, h, Ne.symm h]

/-- A word that uses no option. -/
def Spec.DumpWord.plain : DumpWord → Bool
  | .use _ _ => false
  | _ => true

theorem valuesGiven_plain {w : DumpWord} (h : w.plain = true) (ws : List DumpWord) (o : DumpOpt) :
    valuesGiven o (ws ++ [w]) = valuesGiven o ws := by
  rw [valuesGiven_append]
  cases w <;> simp_all [DumpWord.plain, valuesGiven]

theorem named_plain {w : DumpWord} (h : w.plain = true) (ws : List DumpWord) : named (ws ++ [w]) = named ws := by
  funext o; unfold named; rw [valuesGiven_plain h]

theorem turnedOn_plain {w : DumpWord} (h : w.plain = true) (ws : List DumpWord) :
    turnedOn (ws ++ [w]) = turnedOn ws := by
  funext o; unfold turnedOn; rw [valuesGiven_plain h]

theorem sections_use (f : Sect → Bool) (s : Sect) :
    decide ((Sect.all.filter fun s' => if s' = s then true else f s').length ≤ 1) =
      (decide ((Sect.all.filter f).length ≤ 1) && !Sect.all.any fun s' => s' != s && f s') := by
  have h : ∀ (s : Sect) (a b c d e g i : Bool), (fun f : Sect → Bool =>
      decide ((Sect.all.filter fun s' => if s' = s then true else f s').length ≤ 1) =
      (decide ((Sect.all.filter f).length ≤ 1) && !Sect.all.any fun s' => s' != s && f s'))
      (fun | .rrset => a | .rdata => b | .rrsetNames => c | .rdataNames => d | .timeRange => e | .version => g
           | .sourceInfo => i) := by
    intro s
    cases s <;> decide +kernel
  have := h s (f .rrset) (f .rdata) (f .rrsetNames) (f .rdataNames) (f .timeRange) (f .version) (f .sourceInfo)
  have e : (fun | .rrset => f .rrset | .rdata => f .rdata | .rrsetNames => f .rrsetNames | .rdataNames => f .rdataNames
                | .timeRange => f .timeRange | .version => f .version | .sourceInfo => f .sourceInfo) = f := by
    funext s; cases s <;> rfl
  rw [e] at this
  exact this

theorem stateOf_use (room : Desk) (stdin : Option Bytes) (ws : List DumpWord) (o : DumpOpt) (v : Option Bytes) :
    doArg {} (stateOf room stdin ws) (optIndex o) v = .ok (stateOf room stdin (ws ++ [.use o v])) := by
  unfold stateOf
  rw [doArg_at]
  have hg : (gridOf ws).use o v = gridOf (ws ++ [.use o v]) := by
    simp only [gridOf, Grid.use, named_use, turnedOn_use, fileNames_append]
    simp [fileNames]
  have hf : (fineSoFar ws && !(gridOf ws).clash o) = fineSoFar (ws ++ [.use o v]) := by
    have h1 : fileNames (ws ++ [.use o v]) = fileNames ws := by simp [fileNames]
    have h2 : (ws ++ [DumpWord.use o v]).contains .wrong = ws.contains .wrong := by
      rw [Bool.eq_iff_iff]; simp
    unfold fineSoFar
    rw [h1, h2]
    cases o with
    | sect s =>
      have h3 : (fun s' => named (ws ++ [.use (.sect s) v]) (.sect s')) =
          fun s' => if s' = s then true else named ws (.sect s') := by
        funext s'; rw [named_use]; simp
      unfold sectionsNamed
      rw [h3, sections_use fun s' => named ws (.sect s')]
      simp [gridOf, Grid.clash, Bool.and_assoc]
    | json =>
      have h3 : sectionsNamed (ws ++ [.use .json v]) = sectionsNamed ws := by
        unfold sectionsNamed; rw [named_use]; simp
      rw [h3]
      simp [Grid.clash]
    | raw =>
      have h3 : sectionsNamed (ws ++ [.use .raw v]) = sectionsNamed ws := by
        unfold sectionsNamed; rw [named_use]; simp
      rw [h3]
      simp [Grid.clash]
  rw [hg, hf]

theorem stateOf_wrong (room : Desk) (stdin : Option Bytes) (ws : List DumpWord) :
    (stateOf room stdin ws).bad = stateOf room stdin (ws ++ [.wrong]) := by
  have h1 : gridOf (ws ++ [.wrong]) = gridOf ws := by
    unfold gridOf; rw [named_plain rfl, turnedOn_plain rfl]; simp [fileNames]
  have h2 : fineSoFar (ws ++ [.wrong]) = false := by
    simp [fineSoFar]
  unfold stateOf
  rw [h1, h2]
  rfl

theorem stateOf_file (file : ArgState → Bytes → ArgM ArgState) (room : Desk) (stdin : Option Bytes)
    (ws : List DumpWord) (f : Bytes) :
    plainWord file (stateOf room stdin ws) f = .ok (stateOf room stdin (ws ++ [.file f])) := by
  have hq : ∀ a okay, (ArgState.at a room okay stdin).queue[(ArgState.at a room okay stdin).tail]? = none := fun _ _ =>
    List.getElem?_eq_none (Nat.le_refl _)
  have hn : fileNames (ws ++ [.file f]) = fileNames ws ++ [f] := by simp [fileNames]
  have hs : sectionsNamed (ws ++ [.file f]) = sectionsNamed ws := by
    unfold sectionsNamed; rw [named_plain rfl]
  have hw : (ws ++ [DumpWord.file f]).contains .wrong = ws.contains .wrong := by
    rw [Bool.eq_iff_iff]; simp
  cases h : fileNames ws with
  | nil =>
    have h1 : gridOf (ws ++ [.file f]) = ⟨named ws, turnedOn ws, some f⟩ := by
      unfold gridOf; rw [named_plain rfl, turnedOn_plain rfl, hn, h]; rfl
    have h2 : fineSoFar (ws ++ [.file f]) = fineSoFar ws := by
      unfold fineSoFar; rw [hn, hs, hw, h]; rfl
    have h3 : gridOf ws = ⟨named ws, turnedOn ws, none⟩ := by unfold gridOf; rw [h]; rfl
    unfold stateOf
    rw [h1, h2, h3]
    unfold plainWord
    rw [hq]
    rfl
  | cons f' fs =>
    have h1 : gridOf (ws ++ [.file f]) = ⟨named ws, turnedOn ws, some f'⟩ := by
      unfold gridOf; rw [named_plain rfl, turnedOn_plain rfl, hn, h]; rfl
    have h2 : fineSoFar (ws ++ [.file f]) = false := by
      unfold fineSoFar; rw [hn, hs, hw, h]; simp
    have h3 : gridOf ws = ⟨named ws, turnedOn ws, some f'⟩ := by unfold gridOf; rw [h]; rfl
    unfold stateOf
    rw [h1, h2, h3]
    unfold plainWord
    rw [hq]
    rfl

/-- What words do: help ends the program. -/
def runWords (room : Desk) (stdin : Option Bytes) (ws new : List DumpWord) : ArgM ArgState :=
  if .help ∈ new then .error (.exit true) else .ok (stateOf room stdin (ws ++ new))

theorem cutEquals_split (a : Bytes) : cutEquals {} a = splitValue a := by
  have h : a.contains 61 = !(a.dropWhile (· != 61)).isEmpty := by
    induction a with
    | nil => rfl
    | cons b a ih =>
      by_cases h : b = 61
      · subst h; rfl
      · have h' : (b != 61) = true := by simp [h]
        have h'' : ((61 : UInt8) == b) = false := by simpa using Ne.symm h
        rw [List.dropWhile_cons, h', List.contains_cons, h'', ih]
        rfl
  unfold cutEquals splitValue
  rw [h]
  cases a.dropWhile (· != 61) <;> rfl

theorem longOption_words (file : ArgState → Bytes → ArgM ArgState) (room : Desk) (stdin : Option Bytes)
    (ws : List DumpWord) (a : Bytes)
    (hu : (longWord ((splitValue a).1.drop 2) (splitValue a).2).usual = true) :
    longOption {} file (stateOf room stdin ws) a =
      runWords room stdin ws [longWord ((splitValue a).1.drop 2) (splitValue a).2] := by
  unfold longOption
  rw [cutEquals_split]
  revert hu
  generalize splitValue a = p
  obtain ⟨n, v⟩ := p
  dsimp only
  generalize n.drop 2 = n
  intro hu
  have hl : longMatches (stateOf room stdin ws).grid n = _ := (longMatches_list _ n).trans (longMatches_dump n)
  rw [hl]
  unfold longWord at hu ⊢
  cases n with
  | nil => simp [runWords, stateOf_wrong]
  | cons c n =>
    simp only [List.isEmpty_cons, Bool.false_eq_true, if_false, reduceCtorEq]
    simp only [reduceCtorEq, if_false] at hu
    revert hu
    generalize hm : (dumpNames.filter fun p => (c :: n).isPrefixOf p.1) = m
    intro hu
    match m with
    | [p] => 
      simp only [List.map_cons, List.map_nil]
      rw [stateOf_use]
      simp [runWords]
    | p :: q :: m => simp [runWords, stateOf_wrong]
    | [] =>
      simp only [List.map_nil]
      dsimp only at hu
      by_cases hf : (c :: n).isPrefixOf (lit "argv-file") = true
      · rw [if_pos hf] at hu
        cases hu
      · rw [if_neg hf, if_neg hf]
        have hi : infoNames.any (c :: n).isPrefixOf = helpNames.any (c :: n).isPrefixOf := by
          have hv : (c :: n).isPrefixOf (lit "version") = false := by
            cases hv : (c :: n).isPrefixOf (lit "version") with
            | false => rfl
            | true =>
              have hp : (c :: n).isPrefixOf (lit "version_entries") = true :=
                List.isPrefixOf_iff_prefix.2 ((List.isPrefixOf_iff_prefix.1 hv).trans (by decide))
              have : (lit "version_entries", DumpOpt.sect .version) ∈
                  dumpNames.filter fun p => (c :: n).isPrefixOf p.1 :=
                List.mem_filter.2 ⟨by simp [dumpNames], hp⟩
              rw [hm] at this
              cases this
          simp only [infoNames, helpNames, List.any_cons, List.any_nil, hv]
          cases (c :: n).isPrefixOf (lit "usage") <;> cases (c :: n).isPrefixOf (lit "help") <;> rfl
        rw [hi]
        split <;> simp [runWords, stateOf_wrong]

theorem shortLetters_words (a : Bytes) (v : Option Bytes) (room : Desk) (stdin : Option Bytes) :
    ∀ (l : Bytes) (first : Bool) (ws : List DumpWord), (∀ w ∈ l.map (letterWord v), w.usual = true) →
      shortLetters {} a v first (stateOf room stdin ws) l = runWords room stdin ws (l.map (letterWord v))
  | [], first, ws, _ => by simp [shortLetters, runWords]
  | ch :: l, first, ws, hu => by
    have ih := fun ws => shortLetters_words a v room stdin l false ws fun w hw => hu w (by simp at hw ⊢; exact .inr hw)
    have hw : (letterWord v ch).usual = true := hu _ (by simp)
    unfold shortLetters
    have hs : shortMatch (stateOf room stdin ws).grid ch = shortMatch dumpGrid ch := shortMatch_list _ ch
    rw [hs]
    by_cases ho : ch = 0 ∨ ch = 251 ∨ ch = 254
    · rcases ho with rfl | rfl | rfl <;> cases hw
    · rw [shortMatch_dump ch ho]
      rw [List.map_cons]
      cases hd : dumpLetters.find? fun p => p.1 == ch with
      | some p =>
        simp only [Option.map_some]
        rw [stateOf_use]
        show shortLetters {} a v false _ l = _
        rw [ih]
        have hl : letterWord v ch = .use p.2 v := by unfold letterWord; rw [hd]
        rw [hl]
        simp [runWords]
      | none =>
        simp only [Option.map_none]
        by_cases hq : ch = 63
        · have hl : letterWord v ch = .help := by unfold letterWord; rw [hd, hq]; rfl
          rw [hl]
          simp [hq, runWords]
        · have hn : (decide ((stateOf room stdin ws).tail < (stateOf room stdin ws).queue.length)) = false :=
            decide_eq_false (Nat.lt_irrefl _)
          simp only [hn, Bool.and_false, Bool.false_and, Bool.false_eq_true, if_false, beq_iff_eq, hq, ho]
          have hl : letterWord v ch = .wrong := by unfold letterWord; rw [hd]; simp [hq, ho]
          rw [stateOf_wrong, ih, hl]
          simp [runWords]

theorem runWords_bind (room : Desk) (stdin : Option Bytes) (ws new new' : List DumpWord) (k : ArgState → ArgM ArgState)
    (hk : ∀ ws, k (stateOf room stdin ws) = runWords room stdin ws new') :
    (runWords room stdin ws new >>= k) = runWords room stdin ws (new ++ new') := by
  unfold runWords
  by_cases h : DumpWord.help ∈ new
  · rw [if_pos h, if_pos (List.mem_append.2 (.inl h))]
    rfl
  · rw [if_neg h]
    show k (stateOf room stdin (ws ++ new)) = _
    rw [hk]
    simp [runWords, h]

theorem argWords_step (file : ArgState → Bytes → ArgM ArgState) (room : Desk) (stdin : Option Bytes)
    (ws : List DumpWord) (last : Bool) (a : Bytes) (hu : ∀ w ∈ argWords last a, w.usual = true) :
    (if !last && (lit "--").isPrefixOf a then longOption {} file (stateOf room stdin ws) a
      else if !last && (lit "-").isPrefixOf a && a.length != 1 then shortOption {} (stateOf room stdin ws) a
      else plainWord file (stateOf room stdin ws) a) = runWords room stdin ws (argWords last a) := by
  unfold argWords at hu ⊢
  by_cases h1 : (!last && (lit "--").isPrefixOf a) = true
  · rw [if_pos h1] at hu ⊢
    rw [if_pos h1]
    exact longOption_words file room stdin ws a (hu _ (by simp))
  · rw [if_neg h1] at hu ⊢
    rw [if_neg h1]
    by_cases h2 : (!last && (lit "-").isPrefixOf a && a.length != 1) = true
    · rw [if_pos h2] at hu ⊢
      rw [if_pos h2]
      unfold shortOption
      rw [cutEquals_split]
      revert hu
      generalize splitValue a = p
      obtain ⟨n, v⟩ := p
      dsimp only
      cases hn : n.drop 1 with
      | nil => intro _; simp [runWords, stateOf_wrong]
      | cons ch l =>
        intro hu
        exact shortLetters_words n v room stdin (ch :: l) true ws hu
    · rw [if_neg h2, if_neg h2, stateOf_file]
      simp [runWords]

theorem doList_words (file : ArgState → Bytes → ArgM ArgState) (room : Desk) (stdin : Option Bytes) :
    ∀ (as : List Bytes) (last : Bool) (ws : List DumpWord), (∀ w ∈ commandWords last as, w.usual = true) →
      doList {} file last (stateOf room stdin ws) as = runWords room stdin ws (commandWords last as)
  | [], last, ws, _ => by simp [doList, commandWords, runWords]
  | a :: as, last, ws, hu => by
    unfold doList
    unfold commandWords at hu ⊢
    by_cases h : (!last && a == lit "--") = true
    · have h' : (a == lit "--" && (!last || false)) = true := by simpa [and_comm] using h
      have hl : last = false := by simp at h; exact h.1
      rw [if_pos h'] 
      rw [if_pos h] at hu ⊢
      subst hl
      exact doList_words file room stdin as true ws hu
    · have h' : ¬(a == lit "--" && (!last || false)) = true := by simpa [and_comm] using h
      rw [if_neg h'] 
      rw [if_neg h] at hu ⊢
      rw [argWords_step file room stdin ws last a fun w hw => hu w (List.mem_append.2 (.inl hw))]
      exact runWords_bind room stdin ws _ _ _ fun ws =>
        doList_words file room stdin as last ws fun w hw => hu w (List.mem_append.2 (.inr hw))

theorem mandOk_list (a : Grid) : mandOk a.list = a.file.isSome := by
  obtain ⟨u, on, f⟩ := a
  cases f <;> simp [mandOk, Grid.list, argMand, argXor, argLast]

theorem xorOk_list (a : Grid) : xorOk false none a.list = Sect.all.any fun s => a.used (.sect s) := by
  obtain ⟨u, on, f⟩ := a
  simp [xorOk, Grid.list, argMand, argXor, argLast, Sect.all, Bool.or_assoc]

theorem sectionsNamed_any (ws : List DumpWord) :
    (Sect.all.any fun s => named ws (.sect s)) = !(sectionsNamed ws).isEmpty := by
  unfold sectionsNamed
  rw [Bool.eq_iff_iff]
  simp [List.filter_eq_nil_iff]

/-- The checks at the end. -/
theorem stateOf_end (room : Desk) (stdin : Option Bytes) (ws : List DumpWord) (hh : .help ∉ ws) :
    (if (stateOf room stdin ws).okay && mandOk (stateOf room stdin ws).grid &&
        decide ((stateOf room stdin ws).queue.length ≤ (stateOf room stdin ws).tail) &&
        xorOk false none (stateOf room stdin ws).grid
      then (pure (stateOf room stdin ws).grid : ArgM (List ArgEntry)) else .error (.exit false)) =
      match dumpCommand ws with
      | .exit b => .error (.exit b)
      | .run on f => .ok (Grid.list ⟨named ws, on, some f⟩) := by
  have h1 : (stateOf room stdin ws).okay = fineSoFar ws := rfl
  have h2 : (stateOf room stdin ws).grid = (gridOf ws).list := rfl
  have h3 : decide ((stateOf room stdin ws).queue.length ≤ (stateOf room stdin ws).tail) = true := decide_eq_true (Nat.le_refl _)
  rw [h1, h2, h3, mandOk_list, xorOk_list]
  have h4 : (gridOf ws).used = named ws := rfl
  rw [h4, sectionsNamed_any]
  unfold dumpCommand
  rw [if_neg hh]
  by_cases hw : DumpWord.wrong ∈ ws
  · rw [if_pos hw]
    have : fineSoFar ws = false := by simp [fineSoFar, hw]
    rw [this]
    rfl
  · rw [if_neg hw]
    have hc : ws.contains .wrong = false := by simpa using hw
    unfold fineSoFar gridOf
    rw [hc]
    match sectionsNamed ws, fileNames ws with
    | [], _ => simp
    | [_], [] => rfl
    | [_], [f] => rfl
    | [_], _ :: _ :: _ => simp
    | _ :: _ :: _, _ => simp

/-- The program after words, whatever has been in the queue. -/
def EndsWith (room : Nat) (stdin : Option Bytes) (ws new : List DumpWord) (r : ArgM ArgState) : Prop :=
  (.help ∈ new ∧ r = .error (.exit true)) ∨ (.help ∉ new ∧ ∃ q, r = .ok (stateOf ⟨room, q⟩ stdin (ws ++ new)))

theorem endsWith_run (room : Nat) (q : List (Option Nat)) (stdin : Option Bytes) (ws new : List DumpWord) :
    EndsWith room stdin ws new (runWords ⟨room, q⟩ stdin ws new) := by
  unfold runWords
  by_cases h : DumpWord.help ∈ new
  · exact .inl ⟨h, by rw [if_pos h]⟩
  · exact .inr ⟨h, q, by rw [if_neg h]⟩

/-- The library, when what it does with the arguments is known. -/
theorem argvProcess_ends (W : ArgWorld) (hg : W.getenv (lit "GLOBAL_ARGV") = none)
    (new : List DumpWord) (hu : ∀ w ∈ commandWords false (envArgs W.getenv W.argv0), w.usual = true)
    (hn : EndsWith (1 + W.args.length + (envArgs W.getenv W.argv0).length) (some W.stdin)
      (commandWords false (envArgs W.getenv W.argv0)) new
      (doList {} (fileArgs {} W.files W.depth) false (stateOf ⟨1 + W.args.length + (envArgs W.getenv W.argv0).length, []⟩
        (some W.stdin) (commandWords false (envArgs W.getenv W.argv0))) W.args)) :
    argvProcess W dumpGrid =
      match dumpCommand (commandWords false (envArgs W.getenv W.argv0) ++ new) with
      | .exit b => .error (.exit b)
      | .run on f => .ok (Grid.list ⟨named (commandWords false (envArgs W.getenv W.argv0) ++ new), on, some f⟩) := by
  unfold argvProcess processEnv
  rw [hg]
  simp only [Bool.not_false, Bool.and_self, if_true, Bool.and_false, Bool.false_eq_true, if_false]
  rw [← stateOf_nil, doList_words _ _ _ _ _ _ hu]
  unfold runWords
  by_cases h1 : DumpWord.help ∈ commandWords false (envArgs W.getenv W.argv0)
  · rw [if_pos h1]
    unfold dumpCommand
    rw [if_pos (List.mem_append.2 (.inl h1))]
    rfl
  · rw [if_neg h1]
    show (doList _ _ _ (stateOf _ _ _) _ >>= _) = _
    rw [List.nil_append]
    rcases hn with ⟨h2, e⟩ | ⟨h2, q, e⟩
    · rw [e]
      unfold dumpCommand
      rw [if_pos (List.mem_append.2 (.inr h2))]
      rfl
    · rw [e, ← stateOf_end ⟨_, q⟩ _ _ (by simp [h1, h2])]
      rfl

theorem argvProcess_words (W : ArgWorld) (hg : W.getenv (lit "GLOBAL_ARGV") = none)
    (ws : List DumpWord) (hw : ws = commandWords false (envArgs W.getenv W.argv0) ++ commandWords false W.args)
    (hu : ∀ w ∈ ws, w.usual = true) :
    argvProcess W dumpGrid =
      match dumpCommand ws with
      | .exit b => .error (.exit b)
      | .run on f => .ok (Grid.list ⟨named ws, on, some f⟩) := by
  subst hw
  refine argvProcess_ends W hg _ (fun w hw => hu w (List.mem_append.2 (.inl hw))) ?_
  rw [doList_words _ _ _ _ _ _ fun w hw => hu w (List.mem_append.2 (.inr hw))]
  exact endsWith_run _ _ _ _ _

/-- The flags for options. -/
def flagsOf (on : DumpOpt → Bool) : DumpFlags :=
  { json := on .json, addRaw := on .raw, rrset := on (.sect .rrset), rdata := on (.sect .rdata)
    rrsetNames := on (.sect .rrsetNames), rdataNames := on (.sect .rdataNames), timeRange := on (.sect .timeRange)
    version := on (.sect .version), sourceInfo := on (.sect .sourceInfo) }

theorem gridFlags_list (a : Grid) : gridFlags a.list = (flagsOf a.on, a.file) := rfl

theorem pieces_cons (cur : Bytes) (b : UInt8) (t : Bytes) :
    pieces (lit " \t") cur (b :: t) =
      if isBlank b then if cur.isEmpty then pieces (lit " \t") [] t else cur :: pieces (lit " \t") [] t
      else pieces (lit " \t") (cur ++ [b]) t := by
  have hb : (lit " \t").contains b = isBlank b := by
    rw [Bool.eq_iff_iff]; simp [isBlank, lit]
  conv => lhs; unfold pieces
  simp only [hb]

theorem pieces_run (cur t : Bytes) (h : cur ≠ []) :
    pieces (lit " \t") cur t = (cur ++ t.takeWhile (!isBlank ·)) :: pieces (lit " \t") [] (t.dropWhile (!isBlank ·)) := by
  induction t generalizing cur with
  | nil => simp [pieces, h]
  | cons b t ih =>
    rw [pieces_cons, List.takeWhile_cons, List.dropWhile_cons]
    cases hs : isBlank b with
    | true => simp [pieces_cons, hs, h]
    | false =>
      simp only [Bool.false_eq_true, if_false, Bool.not_false, if_true]
      rw [ih (cur ++ [b]) (by simp)]
      simp

theorem pieces_blank (t : Bytes) : pieces (lit " \t") [] t = pieces (lit " \t") [] (t.dropWhile isBlank) := by
  induction t with
  | nil => rfl
  | cons b t ih =>
    rw [List.dropWhile_cons]
    cases hs : isBlank b with
    | true => rw [if_pos rfl, ← ih, pieces_cons, hs]; rfl
    | false => rfl

theorem dropWhile_starts {p : UInt8 → Bool} {l : Bytes} {b : UInt8} {t : Bytes} (h : l.dropWhile p = b :: t) :
    p b = false := by
  induction l with
  | nil => cases h
  | cons x l ih =>
    rw [List.dropWhile_cons] at h
    cases hx : p x with
    | true => rw [hx] at h; exact ih h
    | false => rw [hx] at h; cases h; exact hx

theorem pieces_words : ∀ (n : Nat) (t : Bytes), t.length < n → pieces (lit " \t") [] t = blankWords t
  | 0, _, h => by omega
  | n + 1, t, hn => by
    rw [pieces_blank]
    unfold blankWords
    split
    · next h => rw [h]; rfl
    · next b t' h =>
      have h1 := (List.dropWhile_sublist isBlank (l := t)).length_le
      have h2 := (List.dropWhile_sublist (!isBlank ·) (l := t')).length_le
      rw [h] at h1 ⊢
      simp only [List.length_cons] at h1
      rw [pieces_cons, dropWhile_starts h]
      simp only [Bool.false_eq_true, if_false, List.nil_append]
      rw [pieces_run _ _ (by simp), pieces_words n _ (by omega)]
      rfl

theorem upper_eq : ∀ b : UInt8, (if 97 ≤ b && b ≤ 122 then b - 32 else b) = upper b := by
  apply u8_all
  decide +kernel

theorem afterSlash_eq (path : Bytes) : (path.reverse.takeWhile (· != 47)).reverse = afterSlash path := by
  have one : ∀ l : Bytes, (∀ b ∈ l, b ≠ 47) → l.takeWhile (· != 47) = l := by
    intro l hl
    induction l with
    | nil => rfl
    | cons b l ih =>
      have hb : (b != 47) = true := by simpa using hl b List.mem_cons_self
      rw [List.takeWhile_cons, hb, ih fun b hb => hl b (List.mem_cons_of_mem _ hb)]
      rfl
  unfold afterSlash
  split
  · next h =>
    induction path with
    | nil => cases h
    | cons b t ih =>
      unfold afterSlash.afterSlash'
      split
      · next ht =>
        rw [← ih ht, List.reverse_cons]
        congr 1
        have : ∀ l : Bytes, 47 ∈ l → (l ++ [b]).takeWhile (· != 47) = l.takeWhile (· != 47) := by
          intro l hl
          induction l with
          | nil => cases hl
          | cons x l ih =>
            by_cases hx : x = 47
            · simp [hx]
            · have hx' : (x != 47) = true := by simp [hx]
              rw [List.cons_append, List.takeWhile_cons, List.takeWhile_cons, hx', ih]
              rcases List.mem_cons.1 hl with e | e
              · exact absurd e.symm hx
              · exact e
        exact this _ (by simpa using ht)
      · next ht =>
        have hb : b = 47 := by
          rcases List.mem_cons.1 h with e | e
          · exact e.symm
          · exact absurd e ht
        subst hb
        rw [if_pos rfl, List.reverse_cons, List.takeWhile_append]
        have : t.reverse.takeWhile (· != 47) = t.reverse := one _ fun b hb e => ht (by simpa [e] using hb)
        rw [this]
        simp
  · next h =>
    rw [one _ fun b hb e => h (by simpa [e] using hb), List.reverse_reverse]

theorem envArgs_words (getenv : Bytes → Option Bytes) (argv0 : Bytes) :
    envArgs getenv argv0 = environmentArgs getenv argv0 := by
  unfold envArgs environmentArgs programName
  rw [afterSlash_eq]
  have : ((afterSlash argv0).take 256).map (fun b => if 97 ≤ b && b ≤ 122 then b - 32 else b) =
      ((afterSlash argv0).take 256).map upper := List.map_congr_left fun b _ => upper_eq b
  rw [this]
  cases getenv _ with
  | none => rfl
  | some v => exact pieces_words _ v (Nat.lt_succ_self _)

end Verif
