import Verif.Lemmas.Session

/-! # C62: objects are released once, and not used afterwards -/

namespace Verif.Props
open Verif Verif.Spec

/-- The blocks `ext` are live. -/
def Given (ext : List Nat) (h : Heap) : Prop := h.Sane ∧ ∀ p ∈ ext, p ∈ h.live.map Prod.fst

/-- Library functions that turn any string into the name abc. -/
private def someNames : Libs := ⟨fun _ => none, fun _ => none, fun _ => some [3, 97, 98, 99, 0], id, fun _ => 0⟩

/-- A file in block 0 is queried; an entry is delivered and read, with the iterator, the query and the reader destroyed,
some of them twice. -/
private def plainQuery : List Op :=
  [.newReader [0], .newQuery .rrset, .call 0 (.set (.data (some (lit "abc")))), .query 0 0 (fun _ => true) [],
    .next 0 (fun _ => true) ⟨[.step .self, .deliver [0, 0, 1, 0, 4, 1, 2, 3, 4] [1, 1, 1]], []⟩, .count 0,
    .destroyReader 0, .destroyIter 0, .destroyIter 0, .destroyQuery 0, .destroyQuery 0, .read 0]

/-- A heap with a file in block 0. -/
private def oneFile : Heap := ⟨1, [(0, [])]⟩

private theorem given_oneFile : Given [0] oneFile :=
  ⟨⟨by simp [oneFile], by simp [oneFile]⟩, by simp [oneFile]⟩

/-- The outcome of a program and of the destruction of everything that is left: the blocks then, and the number of
entries left before. -/
private def finish (ext : List Nat) (ops : List Op) (h : Heap) : Option (List (Nat × Bytes) × Nat) :=
  match programMem x86Arith someNames (allowed ext) {} ops h with
  | .ok (s, h) => match programMem x86Arith someNames (allowed ext) s (cleanup s) h with
    | .ok (_, h') => some (h'.live, (s.entries.filter (·.isSome)).length)
    | _ => none
  | _ => none

/-- C62: a program that keeps to the rules never frees a block that is not there and never uses a block that has been
freed, whatever it calls in which order, whatever is in the files, and whatever mtbl does. -/
theorem C62_safe (A : Arith) (L : Libs) (hA : RealShifts A) (ext : List Nat) (h : Heap) (hg : Given ext h)
    (ops : List Op) :
    programMem A L (allowed ext) {} ops h ≠ .fault .badFree ∧
    programMem A L (allowed ext) {} ops h ≠ .fault .useAfterFree := by
  have := safe_program (C := False) (L := L) (base := h.live) hA (allowed ext) (fun _ _ h => h) nofun ops
    (Inv.empty hg.2) h ⟨hg.1, List.Perm.refl _⟩
  rcases this with ⟨s, h', R', e, -, -⟩ | ⟨f, e, hf⟩
  · rw [e]
    exact ⟨nofun, nofun⟩
  · rw [e]
    constructor
    · intro hx
      cases hx
      exact hf.1 rfl
    · intro hx
      cases hx
      exact hf.2 rfl

example : finish [0] plainQuery oneFile = some ([(0, [])], 1) := by decide +kernel

example : programMem x86Arith someNames (allowed [0]) {} plainQuery oneFile ≠ .fault .useAfterFree :=
  (C62_safe _ _ realShifts_x86 _ _ given_oneFile _).2

/-- Without the rules this is false: the iterator uses the query after its destruction. -/
example : (match programMem x86Arith someNames (fun _ _ => true) {}
    [.newReader [0], .newQuery .rrset, .call 0 (.set (.data (some (lit "abc")))), .query 0 0 (fun _ => true) [],
      .destroyQuery 0, .next 0 (fun _ => true) ⟨[.step .self], []⟩] oneFile with
    | .fault .useAfterFree => true
    | _ => false) = true := by decide +kernel

/-- C62: at any time, the program can destroy all its objects; these calls succeed, no pointers are left, and the blocks that
were there before the program are still there.  Whatever else is left are blocks without use (see `C62_released_partial`). -/
theorem C62_cleanup (A : Arith) (L : Libs) (hA : RealShifts A) (ext : List Nat) (h : Heap) (hg : Given ext h)
    (ops : List Op) (s : Session) (h' : Heap) (hr : programMem A L (allowed ext) {} ops h = .ok (s, h')) :
    ∃ s' h'' lost, programMem A L (allowed ext) s (cleanup s) h' = .ok (s', h'') ∧ AllNull s' ∧
      h''.live.Perm (lost ++ h.live) := by
  have := safe_program (C := False) (L := L) (base := h.live) hA (allowed ext) (fun _ _ h => h) nofun ops
    (Inv.empty hg.2) h ⟨hg.1, List.Perm.refl _⟩
  rcases this with ⟨s1, h1, R1, e, H, hi⟩ | ⟨f, e, -⟩
  · rw [hr] at e
    cases e
    obtain ⟨s2, h2, R2, e2, H2, hn, K, -, hp⟩ := does_cleanup (A := A) (L := L) hi h' H
    exact ⟨s2, h2, _, e2, hn, H2.perm.trans hp⟩
  · rw [hr] at e
    cases e

example (s : Session) (h' : Heap)
    (hr : programMem x86Arith someNames (allowed [0]) {} plainQuery oneFile = .ok (s, h')) :
    ∃ s' h'' lost, programMem x86Arith someNames (allowed [0]) s (cleanup s) h' = .ok (s', h'') ∧ AllNull s' ∧
      h''.live.Perm (lost ++ [(0, [])]) := C62_cleanup _ _ realShifts_x86 _ _ given_oneFile _ _ _ hr

/-- C62: after a program has destroyed all its objects, the heap is as before: everything that was allocated has been
released.  Partial: for programs without queries that have a removal stage (`removal`: aggregated, with a strict time
bound, on a set file), which lose blocks (see the counterexample). -/
theorem C62_released_partial (A : Arith) (L : Libs) (hA : RealShifts A) (ext : List Nat) (h : Heap) (hg : Given ext h)
    (ops : List Op) (s : Session) (h' : Heap)
    (hr : programMem A L (fun s o => allowed ext s o && !removal s o) {} ops h = .ok (s, h')) :
    ∃ s' h'', programMem A L (allowed ext) s (cleanup s) h' = .ok (s', h'') ∧ AllNull s' ∧ h''.live.Perm h.live := by
  have := safe_program (C := True) (L := L) (base := h.live) hA (fun s o => allowed ext s o && !removal s o)
    (fun _ _ h => by simp only [Bool.and_eq_true] at h; exact h.1)
    (fun _ _ _ h => by simp only [Bool.and_eq_true, Bool.not_eq_true'] at h; exact h.2) ops
    (Inv.empty hg.2) h ⟨hg.1, List.Perm.refl _⟩
  rcases this with ⟨s1, h1, R1, e, H, hi⟩ | ⟨f, e, -⟩
  · rw [hr] at e
    cases e
    obtain ⟨s2, h2, R2, e2, H2, hn, K, hK, hp⟩ := does_cleanup (A := A) (L := L) hi h' H
    rw [hK trivial] at hp
    exact ⟨s2, h2, e2, hn, H2.perm.trans hp⟩
  · rw [hr] at e
    cases e

example : (match programMem x86Arith someNames (fun s o => allowed [0] s o && !removal s o) {} plainQuery oneFile with
    | .ok (s, h) => h.live.length == 7 && s.iters.length == 1 && (pointer s.entries 0).isSome
    | _ => false) = true := by decide +kernel

/-- C62: an entry keeps its data until it is destroyed, whatever else the program does: advancing or destroying the iterator
it is from, destroying the query and the reader. -/
theorem C62_entries (A : Arith) (L : Libs) (hA : RealShifts A) (ext : List Nat) (h : Heap) (hg : Given ext h)
    (ops more : List Op) (s s' : Session) (h1 h2 : Heap) (hr : programMem A L (allowed ext) {} ops h = .ok (s, h1))
    (i : Nat) (m : EntryMem) (hm : pointer s.entries i = some m) (hmore : ∀ o ∈ more, o ≠ .destroyEntry i)
    (hr' : programMem A L (allowed ext) s more h1 = .ok (s', h2)) :
    pointer s'.entries i = some m ∧ Intact m h1 ∧ Intact m h2 := by
  have hint : ∀ {s : Session} {h1 : Heap} {R : List (Nat × Bytes)}, Owned h1 R → Inv ext h.live False s R →
      pointer s.entries i = some m → Intact m h1 := by
    intro s h1 R H hi hm
    obtain ⟨hl, ho⟩ := entry_own hi hm
    refine ⟨hl, fun b hb => load_of_owned H (ho b ?_), fun p hp => load_of_owned H (ho _ ?_),
      fun p hp => load_of_owned H (ho _ ?_)⟩
    · simp [EntryMem.own, hb]
    · simp [EntryMem.own, hp, blk]
    · simp [EntryMem.own, hp, blk]
  have hm' := program_entries hr' hm hmore
  have := safe_program (C := False) (L := L) (base := h.live) hA (allowed ext) (fun _ _ h => h) nofun ops
    (Inv.empty hg.2) h ⟨hg.1, List.Perm.refl _⟩
  rcases this with ⟨s1, k1, R1, e, H, hi⟩ | ⟨f, e, -⟩
  · rw [hr] at e
    cases e
    have := safe_program (C := False) (L := L) (base := h.live) hA (allowed ext) (fun _ _ h => h) nofun more hi h1 H
    rcases this with ⟨s2, k2, R2, e, H2, hi2⟩ | ⟨f, e, -⟩
    · rw [hr'] at e
      cases e
      exact ⟨hm', hint H hi hm, hint H2 hi2 hm'⟩
    · rw [hr'] at e
      cases e
  · rw [hr] at e
    cases e

example : (match programMem x86Arith someNames (allowed [0]) {} (plainQuery.take 5) oneFile with
    | .ok (s, h) => match pointer s.entries 0, programMem x86Arith someNames (allowed [0]) s (plainQuery.drop 5) h with
      | some m, .ok (_, h') => m.e.rdatas == [[1, 2, 3, 4]] && m.rdatas.length == 1 &&
          m.rdatas.all fun p => h'.live.contains (p, [1, 2, 3, 4])
      | _, _ => false
    | _ => false) = true := by decide +kernel

/-- A set file is queried for a name with a strict time bound, and the iterator is destroyed. -/
private def strictQuery : List Op :=
  [.newSetfile, .newQuery .rrset, .call 0 (.set (.data (some (lit "abc")))),
    .call 0 (.set (.filterParam 1 (some 7) 8)), .query 0 0 (fun _ => true) [], .destroyIter 0]

/-- C62 is false in general: after a query with a strict time bound on a set file, with everything destroyed, a block is
left: the copy of the key in the removal stage. -/
theorem C62_leak_counterexample : ∃ (A : Arith) (L : Libs) (s s' : Session) (h h' : Heap),
    RealShifts A ∧ programMem A L (allowed []) {} strictQuery {} = .ok (s, h) ∧
    programMem A L (allowed []) s (cleanup s) h = .ok (s', h') ∧ AllNull s' ∧ h'.live = [(30, [])] := by
  have hk : (match programMem x86Arith someNames (allowed []) {} strictQuery {} with
      | .ok (s, h) => match programMem x86Arith someNames (allowed []) s (cleanup s) h with
        | .ok (s', h') => s'.iters.all (·.ptr.isNone) && s'.queries.all (·.isNone) && s'.readers.all (·.isNone) &&
            s'.entries.all (·.isNone) && h'.live == [(30, [])]
        | _ => false
      | _ => false) = true := by decide +kernel
  revert hk
  generalize hx : programMem x86Arith someNames (allowed []) {} strictQuery {} = x
  rcases x with ⟨s, h⟩ | _ | _
  · dsimp only
    generalize hy : programMem x86Arith someNames (allowed []) s (cleanup s) h = y
    rcases y with ⟨s', h'⟩ | _ | _
    · intro hk
      simp only [Bool.and_eq_true, List.all_eq_true, Option.isNone_iff_eq_none, beq_iff_eq] at hk
      exact ⟨x86Arith, someNames, s, s', h, h', realShifts_x86, hx, hy,
        ⟨hk.1.1.1.1, hk.1.1.1.2, hk.1.1.2, hk.1.2⟩, hk.2⟩
    · nofun
    · nofun
  · nofun
  · nofun

end Verif.Props
