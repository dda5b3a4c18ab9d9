import Verif.Lemmas.Client
import Verif.Props.Lifetimes

/-! # C65: the strings of output functions belong to the caller -/

namespace Verif.Props
open Verif Verif.Spec

/-- A library that writes names as they are and data as a word. -/
private def plainWdns : Wdns := ⟨fun b => .ok (b.filter (· ≥ 32)), fun _ => some (lit "TYPE"), fun _ _ => lit "data"⟩

private theorem plainNames : PlainNames plainWdns := fun _ => .inl ⟨_, rfl⟩

/-- Surroundings with this library. -/
private def plainRender : Render := ⟨List.replicate 32 0, fun _ => none, ⟨fun _ => lit "1", fun _ => []⟩, plainWdns⟩

/-- Calls of nothing. -/
private def noLibs : Libs := ⟨fun _ => none, fun _ => none, fun _ => none, id, fun _ => 0⟩

/-- A heap with a file in block 0. -/
private def file0 : Heap := ⟨1, [(0, [])]⟩

private theorem given_file0 : Given [0] file0 :=
  ⟨⟨by simp [file0], by simp [file0]⟩, by simp [file0]⟩

/-- The reader of a file delivers an entry with this key and value. -/
private def oneEntry (k v : Bytes) : List ClientCall :=
  [.object (.newReader [0]), .object (.iterate 0 fun _ => true), .object (.next 0 (fun _ => true) ⟨[], [(k, v)]⟩)]

/-- An RRset with two records. -/
private def exRrset : Bytes × Bytes := ([0, 1, 97, 0, 1, 1, 98, 0, 2, 7, 8, 1, 9], [1, 2, 3])

/-- The entry is written in three ways; then everything but the strings is destroyed, and one of them is freed. -/
private def threeStrings : List ClientCall :=
  oneEntry exRrset.1 exRrset.2 ++ [.newFormatter, .setFormatter 0 (.raw true), .setFormatter 0 (.date true), .text 0, .json 0,
    .format 0 0, .object (.destroyEntry 0), .object (.destroyIter 0), .object (.destroyReader 0), .destroyFormatter 0,
    .destroyFormatter 0, .freeString 1]

/-- What a program leaves: the strings and the blocks. -/
private def leaves (cs : List ClientCall) : Option (List (Option Nat) × List (Nat × Bytes)) :=
  match callsMem x86Arith noLibs plainRender (permitted [0]) {} cs file0 with
  | .ok (s, h) => some (s.strings, h.live)
  | _ => none

/-! ## Safety -/

/-- C65: a program that keeps to the rules never frees a block that is not there and never uses a block that has been freed,
whatever entries it writes how, and whatever it destroys and frees in which order. -/
theorem C65_safe (A : Arith) (L : Libs) (E : Render) (hA : RealShifts A) (hE : PlainNames E.wdns) (ext : List Nat) (h : Heap)
    (hg : Given ext h) (cs : List ClientCall) :
    callsMem A L E (permitted ext) {} cs h ≠ .fault .badFree ∧
    callsMem A L E (permitted ext) {} cs h ≠ .fault .useAfterFree := by
  have := safe_calls (C := False) (L := L) (base := h.live) hA hE (permitted ext) (fun _ _ h => h) nofun cs
    (Held.empty hg.2) h ⟨hg.1, List.Perm.refl _⟩
  rcases this with ⟨s, h', R', e, -, -⟩ | ⟨f, e, hf⟩
  · rw [e]
    exact ⟨nofun, nofun⟩
  · rw [e]
    constructor
    · intro hx
      cases hx
      exact hf.1 rfl
    · intro hx
      cases hx
      exact hf.2 rfl

example : (leaves threeStrings).map (·.1.map (·.isSome)) = some [true, false, true] := by decide +kernel

example : callsMem x86Arith noLibs plainRender (permitted [0]) {} threeStrings file0 ≠ .fault .useAfterFree :=
  (C65_safe _ _ _ realShifts_x86 plainNames _ _ given_file0 _).2

/-! ## What is answered -/

/-- A state that a program reaches. -/
private theorem reached {A : Arith} {L : Libs} {E : Render} (hA : RealShifts A) (hE : PlainNames E.wdns) {ext : List Nat} {h : Heap}
    (hg : Given ext h) {cs : List ClientCall} {s : Client} {h1 : Heap} (hr : callsMem A L E (permitted ext) {} cs h = .ok (s, h1)) :
    ∃ gs R, Owned h1 R ∧ Held ext h.live False gs s R := by
  have := safe_calls (C := False) (L := L) (base := h.live) hA hE (permitted ext) (fun _ _ h => h) nofun cs
    (Held.empty hg.2) h ⟨hg.1, List.Perm.refl _⟩
  rcases this with ⟨s', h', R', e, H, gs, hi, -⟩ | ⟨f, e, hf⟩
  · rw [hr] at e
    cases e
    exact ⟨gs, R', H, hi⟩
  · rw [hr] at e
    cases e

/-- C65: an entry decoded from a key of a known type has the parts its type says; from a key of any other type comes an entry
that passes for an RRset but has no name. -/
theorem C65_decoded (key val : Bytes) (h h' : Heap) (m : EntryMem) (hd : entryDecodeMem key val h = .ok (some m, h')) :
    WellFormed m ∨ (Typeless m ∧ ∀ t, key.head? = some t → t.toNat ∉ knownTypes) :=
  yields_decode_form key val h (some m) h' hd m rfl

example : (match entryDecodeMem exRrset.1 exRrset.2 {} with
    | .ok (some m, _) => m.name.isSome && m.bailiwick.isSome && m.e.rdatas == [[7, 8], [9]]
    | _ => false) = true := by decide +kernel

/-- C65: so it is with every entry a program has. -/
theorem C65_entries (A : Arith) (L : Libs) (E : Render) (hA : RealShifts A) (hE : PlainNames E.wdns) (ext : List Nat) (h : Heap)
    (hg : Given ext h) (cs : List ClientCall) (s : Client) (h1 : Heap)
    (hr : callsMem A L E (permitted ext) {} cs h = .ok (s, h1)) (e : Nat) (m : EntryMem)
    (hm : pointer s.objects.entries e = some m) : WellFormed m ∨ Typeless m := by
  obtain ⟨gs, R, H, hi⟩ := reached hA hE hg hr
  exact hi.formed m (mem_of_get (pointer_some hm))

example : (match callsMem x86Arith noLibs plainRender (permitted [0]) {} (oneEntry exRrset.1 exRrset.2) file0 with
    | .ok (s, _) => (pointer s.objects.entries 0).any fun m => m.name.isSome && m.bailiwick.isSome
    | _ => false) = true := by decide +kernel

private theorem not_typeless {m : EntryMem} (h : WellFormed m ∨ Typeless m) (hn : ¬ Typeless m) (x : Out Bytes) :
    WellFormed m ∧ answer m x = x := by
  rcases h with h | h
  · exact ⟨h, answer_formed h x⟩
  · exact absurd h hn

/-- C65: `dnstable_entry_to_text` answers with a new block that holds the text of the entry; no other block is changed, added or
lost.  It does not return NULL. -/
theorem C65_text (A : Arith) (L : Libs) (E : Render) (hA : RealShifts A) (hE : PlainNames E.wdns) (ext : List Nat) (h : Heap)
    (hg : Given ext h) (cs : List ClientCall) (s : Client) (h1 : Heap)
    (hr : callsMem A L E (permitted ext) {} cs h = .ok (s, h1)) (e : Nat) (m : EntryMem)
    (hm : pointer s.objects.entries e = some m) (hn : ¬ Typeless m) :
    Answers s h1 (callMem A L E s (.text e)) (entryToText E.gmtime E.locale E.wdns m.e) := by
  obtain ⟨gs, R, H, hi⟩ := reached hA hE hg hr
  obtain ⟨hf, ha⟩ := not_typeless (hi.formed m (mem_of_get (pointer_some hm))) hn
    (entryToTextFmt E.gmtime E.locale E.wdns true m.e)
  have hx := (renders_entry hi hm hE).1 true h1 H
  rw [ha] at hx
  unfold callMem
  simp only [hm]
  exact answers_of H hx (mild_text hE _ _ _ hf).1

/-- C65: `dnstable_entry_to_json` does so with the JSON of the entry. -/
theorem C65_json (A : Arith) (L : Libs) (E : Render) (hA : RealShifts A) (hE : PlainNames E.wdns) (ext : List Nat) (h : Heap)
    (hg : Given ext h) (cs : List ClientCall) (s : Client) (h1 : Heap)
    (hr : callsMem A L E (permitted ext) {} cs h = .ok (s, h1)) (e : Nat) (m : EntryMem)
    (hm : pointer s.objects.entries e = some m) (hn : ¬ Typeless m) :
    Answers s h1 (callMem A L E s (.json e)) (entryToJson E.numbuf E.gmtime E.wdns m.e) := by
  obtain ⟨gs, R, H, hi⟩ := reached hA hE hg hr
  obtain ⟨hf, ha⟩ := not_typeless (hi.formed m (mem_of_get (pointer_some hm))) hn
    (entryToJsonFmt E.numbuf E.gmtime E.wdns { unixDates := true, alwaysArray := false, addRawRdata := false } m.e)
  have hx := (renders_entry hi hm hE).2 { unixDates := true, alwaysArray := false, addRawRdata := false } h1 H
  rw [ha] at hx
  unfold callMem
  simp only [hm]
  exact answers_of H hx (mild_json hE _ _ _ hf).1

/-- C65: `dnstable_entry_format` does so with what the settings of the formatter say. -/
theorem C65_format (A : Arith) (L : Libs) (E : Render) (hA : RealShifts A) (hE : PlainNames E.wdns) (ext : List Nat) (h : Heap)
    (hg : Given ext h) (cs : List ClientCall) (s : Client) (h1 : Heap)
    (hr : callsMem A L E (permitted ext) {} cs h = .ok (s, h1)) (f e : Nat) (g : FormatterMem) (m : EntryMem)
    (hf : pointer s.formatters f = some g) (hm : pointer s.objects.entries e = some m) (hn : ¬ Typeless m) :
    Answers s h1 (callMem A L E s (.format f e)) (entryFormat E.numbuf E.gmtime E.locale E.wdns g.f m.e) := by
  obtain ⟨gs, R, H, hi⟩ := reached hA hE hg hr
  obtain ⟨hw, ha⟩ := not_typeless (hi.formed m (mem_of_get (pointer_some hm))) hn (entryFormat E.numbuf E.gmtime E.locale E.wdns g.f m.e)
  have hx := renders_format hi hm hf hE h1 H
  rw [ha] at hx
  unfold callMem
  simp only [hm, hf]
  exact answers_of H hx (mild_formatted hE _ hw).1

/-- C65: a new formatter writes JSON, with times as numbers, arrays only for several records, and no raw data: with it an entry is
written as by `dnstable_entry_to_json`. -/
theorem C65_defaults (A : Arith) (L : Libs) (E : Render) (s s' : Client) (h h' : Heap)
    (hr : callMem A L E s .newFormatter h = .ok (s', h')) :
    ∃ g, s'.formatters = s.formatters ++ [some g] ∧
      g.f = { json := true, unixDates := true, alwaysArray := false, addRawRdata := false } ∧
      ∀ e, entryFormat E.numbuf E.gmtime E.locale E.wdns g.f e = entryToJson E.numbuf E.gmtime E.wdns e := by
  cases hr
  exact ⟨_, rfl, rfl, fun _ => rfl⟩

example : (match callMem x86Arith noLibs plainRender {} .newFormatter file0 with
    | .ok (s, _) => s.formatters.map (Option.map (·.f.json))
    | _ => []) = [some true] := by decide +kernel

/-- C65: the settings of a formatter are those made with it, the last one of each kind, whatever else the program does. -/
theorem C65_settings (A : Arith) (L : Libs) (E : Render) (ext : List Nat) (s s' : Client) (h h' : Heap) (f : Nat)
    (g : FormatterMem) (hf : pointer s.formatters f = some g) (cs : List ClientCall) (hc : ∀ c ∈ cs, c ≠ .destroyFormatter f)
    (hr : callsMem A L E (permitted ext) s cs h = .ok (s', h')) :
    pointer s'.formatters f = some { g with f := configured g.f (settings f cs) } :=
  yields_calls_formatter hf cs hc h s' h' hr

example : (match callsMem x86Arith noLibs plainRender (permitted [0]) {} [.newFormatter, .newFormatter, .setFormatter 0 (.raw true),
      .setFormatter 1 (.output false), .setFormatter 0 (.array true), .setFormatter 0 (.raw false)] file0 with
    | .ok (s, _) => s.formatters.map (Option.map fun g => (g.f.json, g.f.alwaysArray, g.f.addRawRdata))
    | _ => []) = [some (true, true, false), some (false, false, false)] := by decide +kernel

/-- What the program with an RRset writes. -/
example : (leaves (threeStrings.take 9)).map (fun x => x.1.map fun p => p.bind fun p => x.2.lookup p) = some
    [some (lit ";;  bailiwick: b\n;;      count: 1\n;; first seen: \n;;  last seen: \na IN TYPE data\na IN TYPE data\n" ++ [0]),
     some (lit "{\"count\":3,\"time_first\":1,\"time_last\":2,\"rrname\":\"a\",\"rrtype\":\"TYPE\",\"bailiwick\":\"b\",\"rdata\":[\"data\",\"data\"]}" ++ [0]),
     some (lit "{\"count\":3,\"time_first\":1,\"time_last\":2,\"rrname\":\"a\",\"rrtype\":\"TYPE\",\"bailiwick\":\"b\",\"rdata\":[\"data\",\"data\"],\"rdata_raw\":[\"070801\",\"0901\"]}" ++ [0])] := by
  decide +kernel

/-! ## Ownership -/

/-- C65: a string stays as it is until the program frees it, whatever else the program does: destroying the entry, the formatter,
the iterator, writing other entries. -/
theorem C65_strings (A : Arith) (L : Libs) (E : Render) (hA : RealShifts A) (hE : PlainNames E.wdns) (ext : List Nat) (h : Heap)
    (hg : Given ext h) (cs more : List ClientCall) (s s' : Client) (h1 h2 : Heap)
    (hr : callsMem A L E (permitted ext) {} cs h = .ok (s, h1)) (i p : Nat) (hi : pointer s.strings i = some p)
    (hmore : ∀ c ∈ more, c ≠ .freeString i) (hr' : callsMem A L E (permitted ext) s more h1 = .ok (s', h2)) :
    pointer s'.strings i = some p ∧ ∃ b, mLoad p h1 = .ok (b, h1) ∧ mLoad p h2 = .ok (b, h2) := by
  have hp := yields_calls_strings hi (permitted ext) more hmore h1 s' h2 hr'
  refine ⟨hp, ?_⟩
  obtain ⟨gs, R, H, hh⟩ := reached hA hE hg hr
  obtain ⟨t, ht, hm⟩ := string_get hh hi
  refine ⟨t, load_of_owned H hm, ?_⟩
  have := safe_calls (C := False) (L := L) (base := h.live) hA hE (permitted ext) (fun _ _ h => h) nofun more hh h1 H
  rcases this with ⟨s2, k2, R2, e, H2, gs2, hi2, hpre⟩ | ⟨f, e, -⟩
  · rw [hr'] at e
    cases e
    obtain ⟨t2, ht2, hm2⟩ := string_get hi2 hp
    have e1 : (textsOf gs)[i]? = some t := by rw [textsOf, List.getElem?_map, ht]; rfl
    have e2 : (textsOf gs2)[i]? = some t2 := by rw [textsOf, List.getElem?_map, ht2]; rfl
    obtain ⟨z, hz⟩ := hpre
    rw [← hz, List.getElem?_append_left (List.getElem?_eq_some_iff.1 e1).1, e1] at e2
    cases e2
    exact load_of_owned H2 hm2
  · rw [hr'] at e
    cases e

/-- The first string is what it was when it was made, after the entry it tells of and all else is gone. -/
example : ∃ b, ((leaves (threeStrings.take 9)).bind fun x => x.1[0]?.join.bind fun p => x.2.lookup p) = some b ∧
    ((leaves threeStrings).bind fun x => x.1[0]?.join.bind fun p => x.2.lookup p) = some b :=
  ⟨lit ";;  bailiwick: b\n;;      count: 1\n;; first seen: \n;;  last seen: \na IN TYPE data\na IN TYPE data\n" ++ [0],
    by decide +kernel, by decide +kernel⟩

/-- C65: at any time, the program can destroy all its objects and free all its strings; these calls succeed, no pointers are left,
and the blocks that were there before the program are still there. -/
theorem C65_cleanup (A : Arith) (L : Libs) (E : Render) (hA : RealShifts A) (hE : PlainNames E.wdns) (ext : List Nat) (h : Heap)
    (hg : Given ext h) (cs : List ClientCall) (s : Client) (h1 : Heap)
    (hr : callsMem A L E (permitted ext) {} cs h = .ok (s, h1)) :
    ∃ s' h2 lost, callsMem A L E (permitted ext) s (cleanupAll s) h1 = .ok (s', h2) ∧ NothingLeft s' ∧
      h2.live.Perm (lost ++ h.live) := by
  obtain ⟨gs, R, H, hh⟩ := reached hA hE hg hr
  obtain ⟨s2, h2, R2, e2, H2, hn, K, -, hp⟩ := does_cleanupAll (A := A) (L := L) (E := E) hh h1 H
  exact ⟨s2, h2, _, e2, hn, H2.perm.trans hp⟩

/-- After three strings, one of them freed, all can be released. -/
example : (match callsMem x86Arith noLibs plainRender (permitted [0]) {} threeStrings file0 with
    | .ok (s, h) => match callsMem x86Arith noLibs plainRender (permitted [0]) s (cleanupAll s) h with
      | .ok (s', h') => s'.strings.all (·.isNone) && h'.live == file0.live
      | _ => false
    | _ => false) = true := by decide +kernel

/-- C65: the heap is then as before the program.  Partial: for programs without queries that have a removal stage, which lose blocks
(`C62_leak_counterexample`). -/
theorem C65_released_partial (A : Arith) (L : Libs) (E : Render) (hA : RealShifts A) (hE : PlainNames E.wdns) (ext : List Nat)
    (h : Heap) (hg : Given ext h) (cs : List ClientCall) (s : Client) (h1 : Heap)
    (hr : callsMem A L E (fun s c => permitted ext s c && !callRemoval s c) {} cs h = .ok (s, h1)) :
    ∃ s' h2, callsMem A L E (permitted ext) s (cleanupAll s) h1 = .ok (s', h2) ∧ NothingLeft s' ∧ h2.live.Perm h.live := by
  have := safe_calls (C := True) (L := L) (base := h.live) hA hE (fun s c => permitted ext s c && !callRemoval s c)
    (fun _ _ h => by simp only [Bool.and_eq_true] at h; exact h.1)
    (fun _ _ _ h => by simp only [Bool.and_eq_true, Bool.not_eq_true'] at h; exact h.2) cs
    (Held.empty hg.2) h ⟨hg.1, List.Perm.refl _⟩
  rcases this with ⟨s1, k1, R1, e, H, gs, hi, -⟩ | ⟨f, e, -⟩
  · rw [hr] at e
    cases e
    obtain ⟨s2, h2, R2, e2, H2, hn, K, hK, hp⟩ := does_cleanupAll (A := A) (L := L) (E := E) hi h1 H
    rw [hK trivial] at hp
    exact ⟨s2, h2, e2, hn, H2.perm.trans hp⟩
  · rw [hr] at e
    cases e

/-- With nothing but the three strings written, only the file is left. -/
example : (match callsMem x86Arith noLibs plainRender (fun s c => permitted [0] s c && !callRemoval s c) {} (threeStrings.take 9)
      file0 with
    | .ok (s, h) => match callsMem x86Arith noLibs plainRender (permitted [0]) s (cleanupAll s) h with
      | .ok (_, h') => h.live.length > 8 && h'.live == file0.live
      | _ => false
    | _ => false) = true := by decide +kernel

/-- Not every entry can be written: for a key of an unknown type, the output functions use a NULL pointer. -/
theorem C65_unknown_counterexample : ∃ (A : Arith) (L : Libs) (E : Render) (k v : Bytes), RealShifts A ∧ PlainNames E.wdns ∧
    callsMem A L E (permitted [0]) {} (oneEntry k v ++ [.text 0]) file0 = .fault .nullDeref ∧
    callsMem A L E (permitted [0]) {} (oneEntry k v ++ [.json 0]) file0 = .fault .nullDeref := by
  refine ⟨x86Arith, noLibs, plainRender, [7, 1, 2], [], realShifts_x86, plainNames, ?_, ?_⟩
  · rfl
  · rfl

end Verif.Props
