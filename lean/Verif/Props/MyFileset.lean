import Verif.Lemmas.MyFileset
import Verif.Model.Util

/-!
# C76: the set of files
-/

namespace Verif.Props
open Verif.Spec Verif.MyFileset

/-- `my_fileset_get` gives these files and no others. -/
def Gives (fs : Fileset) (l : List (Bytes × Nat)) : Prop := ∀ i, MyFileset.get fs i = l[i]?

/-- No set file lists a file twice. -/
def ListedOnce (dir : Bytes) (scs : List Scene) : Prop :=
  ∀ sc ∈ scs, ∀ t, sc.file = some t → ((namesListed dir t).filter sc.present).Nodup

theorem gives_pairs (fs : Fileset) : Gives fs (pairs fs.items) := by
  intro i
  simp only [MyFileset.get, pairs, List.getElem?_map]
  cases fs.items[i]? <;> rfl

theorem gives_eq {fs : Fileset} {l : List (Bytes × Nat)} (h : Gives fs l) : l = pairs fs.items :=
  List.ext_getElem? fun i => (h i).symm.trans (gives_pairs fs i)

theorem openedNames_eq (F D : List (Bytes × Nat)) :
    openedNames ((F.map fun x => Act.load x.1 x.2) ++ D.map fun x => .unload x.1 x.2) = F.map (·.1) := by
  induction F with
  | nil =>
    simp only [List.map_nil, List.nil_append]
    induction D with
    | nil => rfl
    | cons d D ih => exact ih
  | cons f F ih => simp only [List.map_cons, List.cons_append, openedNames, ih]

theorem closedFiles_eq (F D : List (Bytes × Nat)) :
    closedFiles ((F.map fun x => Act.load x.1 x.2) ++ D.map fun x => .unload x.1 x.2) = D := by
  induction F with
  | nil =>
    simp only [List.map_nil, List.nil_append]
    induction D with
    | nil => rfl
    | cons d D ih => simp only [List.map_cons, closedFiles, ih]
  | cons f F ih => simpa only [List.map_cons, List.cons_append, closedFiles] using ih

/-- C76: after any calls, one that finds a new set file and can read it leaves exactly the files that are listed and exist, in ascending
order of their names; what was there before and is listed keeps its pointer; the others listed are opened once each, in the order in
which they are listed; what is not listed is closed, and nothing else.  Missing: set files that list a file twice, for which it is
false. -/
theorem C76_reload_partial {dir : Bytes} {scs : List Scene} (hs : ListedOnce dir scs) {fs : Fileset} {old : List (Bytes × Nat)}
    (hfs : fs = (reloads (MyFileset.init dir) scs).1) (ho : Gives fs old) {sc : Scene} {seen : Nat × Nat} {text : Bytes}
    (hst : sc.stat = some seen) (hc : seen ≠ lastSeen scs) (hf : sc.file = some text) {L : List Bytes}
    (hL : L = (namesListed dir text).filter sc.present) (hd : L.Nodup) :
    ∃ l, Gives (MyFileset.reload fs sc).1 l ∧ (l.Pairwise fun x y => lexLt x.1 y.1 = true) ∧ (l.map (·.1)).Perm L ∧
      (∀ x ∈ old, x.1 ∈ L → x ∈ l) ∧
      openedNames (MyFileset.reload fs sc).2 = L.filter (fun n => decide (n ∉ old.map (·.1))) ∧
      closedFiles (MyFileset.reload fs sc).2 = old.filter (fun x => decide (x.1 ∉ L)) := by
  obtain ⟨hr, hdir, -⟩ := reloads_holding scs (MyFileset.init dir) [] (ready_init dir) hs (by simp [MyFileset.init, pairs])
  have hc : fs.ino ≠ seen.1 ∨ fs.mtime ≠ seen.2 := by
    have := seen_init dir scs
    rw [← hfs] at this
    rw [← this] at hc
    apply Classical.byContradiction
    intro g
    simp only [not_or, Decidable.not_not] at g
    exact hc (by rw [g.1, g.2])
  rw [← hfs] at hr hdir
  rw [gives_eq ho]
  rw [show dir = fs.setdir from hdir.symm] at hL
  obtain ⟨h1, h2, h3, h4⟩ := reload_news hr ⟨⟨seen.1, seen.2, hst, hc⟩, hf⟩ hL hd
  refine ⟨_, gives_pairs _, ?_, ?_, ?_, ?_, ?_⟩
  · rw [pairs, List.pairwise_map]
    exact h1.order
  · rw [← assign_names (pairs fs.items) L fs.loads]
    exact h3.map _
  · intro x hx hxl
    refine h3.mem_iff.2 ((assign_perm hr.names L fs.loads hd).mem_iff.2 (List.mem_append.2 (.inr ?_)))
    simp [hx, hxl]
  · rw [h4, openedNames_eq, fresh_names]
  · rw [h4, closedFiles_eq]

/-- C76: a call that finds no set file, the one it knows, or one that it cannot read changes nothing in the set and calls nothing. -/
theorem C76_quiet {dir : Bytes} {scs : List Scene} {fs : Fileset} (hfs : fs = (reloads (MyFileset.init dir) scs).1) {sc : Scene}
    {l : List (Bytes × Nat)} (h : Gives fs l) (hq : sc.stat = none ∨ sc.stat = some (lastSeen scs) ∨ sc.file = none) :
    (MyFileset.reload fs sc).2 = [] ∧ Gives (MyFileset.reload fs sc).1 l := by
  have hseen := seen_init dir scs
  rw [← hfs] at hseen
  rw [← hseen] at hq
  have hn : ∀ t, ¬ News fs sc t := by
    rintro t ⟨⟨i, m, h1, h2⟩, h3⟩
    rcases hq with g | g | g
    · rw [h1] at g; exact absurd g (by simp)
    · rw [h1] at g
      injection g with g
      injection g with g1 g2
      rcases h2 with g | g
      · exact g g1.symm
      · exact g g2.symm
    · rw [h3] at g; exact absurd g (by simp)
  have := reload_quiet hn
  refine ⟨this.1, ?_⟩
  intro i
  rw [← h i]
  unfold MyFileset.get
  rw [this.2.1]

/-- C76: whatever the calls find, what is open after them are the files of the set; every file is closed only while it is open, with the
pointer with which it was opened, and after `my_fileset_destroy` none is open.  Missing: set files that list a file twice, for which it
is false. -/
theorem C76_once_partial {dir : Bytes} {scs : List Scene} (hs : ListedOnce dir scs) {fs : Fileset} {acts : List Act}
    (h : reloads (MyFileset.init dir) scs = (fs, acts)) {l : List (Bytes × Nat)} (hl : Gives fs l) :
    (∃ l', holding [] acts = some l' ∧ l'.Perm l) ∧ holding [] (acts ++ MyFileset.destroy fs) = some [] := by
  obtain ⟨hr, hdir, l', h1, h2⟩ := reloads_holding scs (MyFileset.init dir) [] (ready_init dir) hs (by simp [MyFileset.init, pairs])
  rw [h] at h1 h2
  simp only at h1 h2
  rw [gives_eq hl]
  refine ⟨⟨l', h1, h2⟩, ?_⟩
  obtain ⟨l2, h3, h4⟩ := holding_drop (R := []) (pairs fs.items) l' (by simpa using h2)
  rw [holding_append, h1]
  have : MyFileset.destroy fs = (pairs fs.items).map fun x => .unload x.1 x.2 := by
    simp [MyFileset.destroy, pairs]
  rw [this]
  show holding l' _ = _
  rw [h3, h4.eq_nil]

/-- A set file with time `m`, and the files that there are. -/
def sceneOf (m : Nat) (text : String) (there : List String) : Scene := ⟨some (7, m), some (lit text), fun n => decide (n ∈ there.map lit)⟩

example : let scs := [sceneOf 1 "b\na\nx\n" ["/s/a", "/s/b", "/s/c"], sceneOf 1 "a\n" ["/s/a"], sceneOf 2 "c\nb" ["/s/a", "/s/b", "/s/c"]]
    (reloads (MyFileset.init (lit "/s")) scs).2 = [.load (lit "/s/b") 0, .load (lit "/s/a") 1, .load (lit "/s/c") 2, .unload (lit "/s/a") 1] ∧
    MyFileset.get (reloads (MyFileset.init (lit "/s")) scs).1 0 = some (lit "/s/b", 0) ∧
    MyFileset.get (reloads (MyFileset.init (lit "/s")) scs).1 1 = some (lit "/s/c", 2) ∧
    MyFileset.get (reloads (MyFileset.init (lit "/s")) scs).1 2 = none := by decide +kernel

example : ListedOnce (lit "/s") [sceneOf 1 "b\na\nx\n" ["/s/a", "/s/b", "/s/c"], sceneOf 1 "a\n" ["/s/a"],
    sceneOf 2 "c\nb" ["/s/a", "/s/b", "/s/c"]] := by
  intro sc hsc t ht
  simp only [List.mem_cons, List.not_mem_nil, or_false] at hsc
  rcases hsc with rfl | rfl | rfl <;> (simp only [sceneOf, Option.some.injEq] at ht; subst ht; decide +kernel)

/-- A set file that lists a file twice: after the second call both entries have the same pointer, and `my_fileset_destroy` closes it
twice. -/
theorem C76_counterexample : ∃ scs : List Scene, ∃ fs acts, reloads (MyFileset.init (lit "/s")) scs = (fs, acts) ∧
    acts = [.load (lit "/s/a") 0, .load (lit "/s/a") 1, .unload (lit "/s/a") 0] ∧
    MyFileset.destroy fs = [.unload (lit "/s/a") 1, .unload (lit "/s/a") 1] ∧
    holding [] (acts ++ MyFileset.destroy fs) = none :=
  ⟨[sceneOf 1 "a\na\n" ["/s/a"], sceneOf 2 "a\na\n" ["/s/a"]], _, _, rfl, by decide +kernel, by decide +kernel, by decide +kernel⟩

/-- A new set file that cannot be read once counts as known: when it can be read, it is not. -/
theorem C76_missed_counterexample : ∃ fs : Fileset, ∃ sc : Scene,
    fs = (reloads (MyFileset.init (lit "/s")) [{ sceneOf 1 "a\n" ["/s/a"] with file := none }]).1 ∧ sc = sceneOf 1 "a\n" ["/s/a"] ∧
    (MyFileset.reload fs sc).2 = [] ∧ Gives (MyFileset.reload fs sc).1 [] ∧
    (namesListed (lit "/s") (lit "a\n")).filter sc.present = [lit "/s/a"] := by
  refine ⟨_, _, rfl, rfl, by decide +kernel, ?_, by decide +kernel⟩
  exact (C76_quiet rfl (l := []) (by intro i; rfl) (.inr (.inl rfl))).2

end Verif.Props
