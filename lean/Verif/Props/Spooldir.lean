import Verif.Spec.Spooldir
import Mathlib.Data.List.Perm.Subperm

/-!
# C79: the spool directory
-/

namespace Verif.Props
open Verif.Spec Verif.Spooldir

theorem cterm_end {u : Bytes} (h : 0 ∉ u) : cterm u = u ++ [0] := by
  unfold cterm
  rw [if_neg]
  intro h'
  exact h (List.mem_of_getLast? h')

theorem add_plain {u : Bytes} (h : 0 ∉ u) (s : Bytes) : Spooldir.add u s = u ++ s := by
  unfold Spooldir.add
  rw [if_neg]
  intro h'
  exact h (List.mem_of_getLast? h')

theorem add_ended (u s : Bytes) : Spooldir.add (u ++ [0]) s = u ++ s := by
  unfold Spooldir.add
  rw [if_pos (by simp), List.dropLast_concat]

theorem cstr_ended {u : Bytes} (h : 0 ∉ u) : Spooldir.cstr (u ++ [0]) = u := by
  unfold Spooldir.cstr
  rw [List.takeWhile_append_of_pos]
  · simp
  · intro x hx
    simp only [ne_eq, decide_not, Bool.not_eq_eq_eq_not, Bool.not_true, decide_eq_false_iff_not]
    rintro rfl
    exact h hx

/-- The buffers hold the names of the directories below `dname`. -/
structure Below (dname : Bytes) (s : Spool) : Prop where
  plain : 0 ∉ dname
  active : s.active = dname ++ lit "/active" ++ [0]
  incoming : s.incoming = dname ++ lit "/incoming" ++ [0]

theorem below_init {dname : Bytes} (h : 0 ∉ dname) (ins acs : Files) : Below dname (Spooldir.init dname ins acs) := by
  have h1 : Spooldir.add [] dname = dname := add_plain (u := []) (by simp) dname
  refine ⟨h, ?_, ?_⟩ <;>
  · simp only [Spooldir.init]
    rw [h1, add_plain h, cterm_end]
    rw [List.mem_append, not_or]
    exact ⟨h, by decide⟩

theorem path_in {dname sub n : Bytes} (h : 0 ∉ dname) (hs : 0 ∉ sub) (hn : 0 ∉ n) :
    Spooldir.cstr (pathIn (dname ++ sub ++ [0]) n) = dname ++ sub ++ [47] ++ n := by
  have h0 : 0 ∉ dname ++ sub ++ (47 :: n) := by
    simp only [List.mem_append, List.mem_cons, not_or]
    exact ⟨⟨h, hs⟩, by decide, hn⟩
  unfold pathIn
  rw [List.nil_append, add_ended, cterm_end h0, cstr_ended h0]
  simp

theorem Below.in_path {dname : Bytes} {s : Spool} (h : Below dname s) {n : Bytes} (hn : 0 ∉ n) :
    Spooldir.cstr (pathIn s.incoming n) = pathBelow dname "/incoming" n := by
  rw [h.incoming, path_in h.plain (by decide) hn]
  rfl

theorem Below.ac_path {dname : Bytes} {s : Spool} (h : Below dname s) {n : Bytes} (hn : 0 ∉ n) :
    Spooldir.cstr (pathIn s.active n) = pathBelow dname "/active" n := by
  rw [h.active, path_in h.plain (by decide) hn]
  rfl

theorem pick_first {dname : Bytes} {s : Spool} (h : Below dname s) : ∀ {names : List Bytes}, (∀ n ∈ names, FileName n) →
    (pick s names = none ∧ ∀ n ∈ names, ¬ Offered dname s.inFiles n) ∨
    ∃ pre n post, names = pre ++ n :: post ∧ pick s names = some n ∧ Offered dname s.inFiles n ∧ ∀ m ∈ pre, ¬ Offered dname s.inFiles m
  | [], _ => .inl ⟨rfl, by simp⟩
  | n :: ns, hn => by
    have h0 := hn n (by simp)
    have skip : pick s (n :: ns) = pick s ns → ¬ Offered dname s.inFiles n →
        (pick s (n :: ns) = none ∧ ∀ n' ∈ n :: ns, ¬ Offered dname s.inFiles n') ∨
        ∃ pre n' post, n :: ns = pre ++ n' :: post ∧ pick s (n :: ns) = some n' ∧ Offered dname s.inFiles n' ∧
          ∀ m ∈ pre, ¬ Offered dname s.inFiles m := by
      intro e no
      rw [e]
      rcases pick_first h (names := ns) (fun m hm => hn m (by simp [hm])) with ⟨g1, g2⟩ | ⟨pre, n', post, g1, g2, g3, g4⟩
      · refine .inl ⟨g1, fun m hm => ?_⟩
        rcases List.mem_cons.1 hm with rfl | hm
        · exact no
        · exact g2 m hm
      · refine .inr ⟨n :: pre, n', post, by rw [g1]; rfl, g2, g3, fun m hm => ?_⟩
        rcases List.mem_cons.1 hm with rfl | hm
        · exact no
        · exact g4 m hm
    by_cases hd : n.head? = some 46
    · exact skip (by rw [pick, if_pos hd]) fun o => o.1 hd
    · have e : pick s (n :: ns) = match fileAt s.inFiles (pathBelow dname "/incoming" n) with
          | none => pick s ns
          | some f => if f.kind ≠ .regular then pick s ns else some n := by
        rw [pick, if_neg hd, h.in_path h0.2]
        cases fileAt s.inFiles (pathBelow dname "/incoming" n) <;> rfl
      cases hf : fileAt s.inFiles (pathBelow dname "/incoming" n) with
      | none =>
        rw [hf] at e
        refine skip e ?_
        rintro ⟨_, f, hf', _⟩
        rw [hf] at hf'
        exact absurd hf' (by simp)
      | some f =>
        rw [hf] at e
        by_cases hk : f.kind = .regular
        · refine .inr ⟨[], n, ns, rfl, by rw [e]; simp [hk], ⟨hd, f, hf, hk⟩, by simp⟩
        · refine skip (by rw [e]; simp [hk]) ?_
          rintro ⟨_, f', hf', hk'⟩
          rw [hf] at hf'
          injection hf' with hf'
          exact hk (hf' ▸ hk')

theorem fileAt_without (d : Files) (p q : Bytes) : fileAt (without d p) q = if q = p then none else fileAt d q := by
  unfold fileAt without
  rw [List.find?_filter]
  split
  · next h =>
    subst h
    rw [List.find?_eq_none.2]
    · rfl
    · intro x _
      simp
  · next h =>
    congr 2
    funext x
    by_cases hx : x.1 = q
    · simp [hx, h]
    · simp [hx]

theorem fileAt_cons (d : Files) (p q : Bytes) (f : File) : fileAt ((p, f) :: d) q = if q = p then some f else fileAt d q := by
  unfold fileAt
  rw [List.find?_cons]
  by_cases h : q = p
  · subst h; simp
  · rw [if_neg h]
    rw [decide_eq_false fun e : p = q => h e.symm]

theorem next_below {dname : Bytes} {s : Spool} (h : Below dname s) {names : List Bytes} (hn : ∀ n ∈ names, FileName n) (granted : Bool) :
    (next s names granted = (s, none) ∧ ∀ n ∈ names, ¬ Offered dname s.inFiles n) ∨
    ∃ pre n post, names = pre ++ n :: post ∧ Offered dname s.inFiles n ∧ (∀ m ∈ pre, ¬ Offered dname s.inFiles m) ∧
      (∀ q, q ≠ pathBelow dname "/active" n → fileAt (next s names granted).1.acFiles q = fileAt s.acFiles q) ∧
      (∀ q, q ≠ pathBelow dname "/incoming" n → fileAt (next s names granted).1.inFiles q = fileAt s.inFiles q) ∧
      if granted = true ∧ (∀ g, fileAt s.acFiles (pathBelow dname "/active" n) = some g → g.kind ≠ .directory) then
        (next s names granted).2 = some (pathBelow dname "/active" n) ∧
        fileAt (next s names granted).1.acFiles (pathBelow dname "/active" n) = fileAt s.inFiles (pathBelow dname "/incoming" n) ∧
        fileAt (next s names granted).1.inFiles (pathBelow dname "/incoming" n) = none
      else
        (next s names granted).2 = none ∧ (next s names granted).1.inFiles = s.inFiles := by
  rcases pick_first h hn with ⟨g1, g2⟩ | ⟨pre, n, post, g1, g2, g3, g4⟩
  · exact .inl ⟨by unfold next; rw [g1], g2⟩
  · refine .inr ⟨pre, n, post, g1, g3, g4, ?_⟩
    have h0 : 0 ∉ n := (hn n (by rw [g1]; simp)).2
    obtain ⟨_, f, hf, hk⟩ := g3
    have e : next s names granted = match rename (clear s (pathBelow dname "/active" n)) (pathBelow dname "/incoming" n)
          (pathBelow dname "/active" n) granted with
        | none => (clear s (pathBelow dname "/active" n), none)
        | some s' => (s', some (Spooldir.cstr (pathIn s'.active n))) := by
      have ei : (clear s (pathBelow dname "/active" n)).incoming = s.incoming := by
        unfold clear; split
        · rfl
        · split <;> rfl
      have ea : (clear s (pathBelow dname "/active" n)).active = s.active := by
        unfold clear; split
        · rfl
        · split <;> rfl
      unfold next
      rw [g2]
      simp only [h.ac_path h0, ei, ea, h.in_path h0]
      cases rename (clear s (pathBelow dname "/active" n)) (pathBelow dname "/incoming" n) (pathBelow dname "/active" n) granted <;> rfl
    rw [e]
    cases ha : fileAt s.acFiles (pathBelow dname "/active" n) with
    | none =>
      have ec : clear s (pathBelow dname "/active" n) = s := by unfold clear; rw [ha]
      rw [ec]
      cases granted with
      | false => simp [rename]
      | true =>
        simp only [rename, hf, ha, h.ac_path h0, fileAt_cons, fileAt_without]
        refine ⟨fun q hq => by rw [if_neg hq], fun q hq => by rw [if_neg hq], ?_⟩
        simp
    | some g =>
      by_cases hg : g.kind = .directory
      · have ec : clear s (pathBelow dname "/active" n) = s := by unfold clear; rw [ha]; simp [hg]
        rw [ec]
        have er : rename s (pathBelow dname "/incoming" n) (pathBelow dname "/active" n) granted = none := by
          unfold rename
          rw [hf, ha]
          cases granted <;> simp [hg]
        rw [er]
        simp [hg]
      · have ec : clear s (pathBelow dname "/active" n) = { s with acFiles := without s.acFiles (pathBelow dname "/active" n) } := by
          unfold clear; rw [ha]; simp [hg]
        rw [ec]
        cases granted with
        | false =>
          simp only [rename, fileAt_without]
          refine ⟨fun q hq => by rw [if_neg hq], fun _ _ => by first | rfl | trivial, ?_⟩
          simp
        | true =>
          simp only [rename, hf, fileAt_without, if_true, h.ac_path h0, fileAt_cons]
          refine ⟨fun q hq => by simp [hq], fun q hq => by rw [if_neg hq], ?_⟩
          simp [hg]

theorem Below.same {dname : Bytes} {s s' : Spool} (h : Below dname s) (h1 : s'.active = s.active) (h2 : s'.incoming = s.incoming) : Below dname s' :=
  ⟨h.plain, by rw [h1, h.active], by rw [h2, h.incoming]⟩

theorem next_dirs (s : Spool) (names : List Bytes) (granted : Bool) :
    (next s names granted).1.active = s.active ∧ (next s names granted).1.incoming = s.incoming := by
  have ein : ∀ p, (clear s p).active = s.active ∧ (clear s p).incoming = s.incoming := by
    intro p; unfold clear; split
    · exact ⟨rfl, rfl⟩
    · split <;> exact ⟨rfl, rfl⟩
  have ren : ∀ (c c' : Spool) (a b : Bytes), rename c a b granted = some c' → c'.active = c.active ∧ c'.incoming = c.incoming := by
    intro c c' a b h
    unfold rename at h
    split at h
    · injection h with h
      subst h
      exact ⟨rfl, rfl⟩
    · split at h
      · exact absurd h (by simp)
      · injection h with h
        subst h
        exact ⟨rfl, rfl⟩
    · exact absurd h (by simp)
  unfold next
  cases pick s names with
  | none => exact ⟨rfl, rfl⟩
  | some n =>
    simp only
    generalize hc : clear s (Spooldir.cstr (pathIn s.active n)) = c
    have hin := ein (Spooldir.cstr (pathIn s.active n))
    rw [hc] at hin
    cases hr : rename c (Spooldir.cstr (pathIn c.incoming n)) (Spooldir.cstr (pathIn c.active n)) granted with
    | none => exact hin
    | some c' =>
      have := ren _ _ _ _ hr
      exact ⟨this.1.trans hin.1, this.2.trans hin.2⟩

/-- The state after a number of things have happened. -/
def spoolAfter (dname : Bytes) (ins acs : Files) (hs : List Happens) : Spool :=
  hs.foldl (fun s h => (happen s h).1) (Spooldir.init dname ins acs)

theorem below_after {dname : Bytes} (h : 0 ∉ dname) (ins acs : Files) (hs : List Happens) : Below dname (spoolAfter dname ins acs hs) := by
  have : ∀ (hs : List Happens) (s : Spool), Below dname s → Below dname (hs.foldl (fun s h => (happen s h).1) s) := by
    intro hs
    induction hs with
    | nil => intro s h; exact h
    | cons x hs ih =>
      intro s h
      refine ih _ ?_
      cases x with
      | arrives n f => exact h.same rfl rfl
      | vanishes n => exact h.same rfl rfl
      | finished n => exact h.same rfl rfl
      | call ns g => exact h.same (next_dirs s ns g).1 (next_dirs s ns g).2
  exact this hs _ (below_init h ins acs)

/-- C79: `spooldir_next` gives out the first file that the directory lists, that is regular and whose name does not begin with a dot:
the path returned is that of its name in `active`, where this very file is now, and no longer in `incoming`; every other file is where
it was.  It gives out none exactly if the directory lists none that is offered, or the move fails, or a directory of that name is in the
way; then nothing is taken from `incoming`, and at most the file of that name from `active`. -/
theorem C79_next {dname : Bytes} (h : 0 ∉ dname) (ins acs : Files) (hs : List Happens) {s : Spool} (e : s = spoolAfter dname ins acs hs)
    {names : List Bytes} (hn : ∀ n ∈ names, FileName n) (granted : Bool) :
    (next s names granted = (s, none) ∧ ∀ n ∈ names, ¬ Offered dname s.inFiles n) ∨
    ∃ pre n post, names = pre ++ n :: post ∧ Offered dname s.inFiles n ∧ (∀ m ∈ pre, ¬ Offered dname s.inFiles m) ∧
      (∀ q, q ≠ pathBelow dname "/active" n → fileAt (next s names granted).1.acFiles q = fileAt s.acFiles q) ∧
      (∀ q, q ≠ pathBelow dname "/incoming" n → fileAt (next s names granted).1.inFiles q = fileAt s.inFiles q) ∧
      if granted = true ∧ (∀ g, fileAt s.acFiles (pathBelow dname "/active" n) = some g → g.kind ≠ .directory) then
        (next s names granted).2 = some (pathBelow dname "/active" n) ∧
        fileAt (next s names granted).1.acFiles (pathBelow dname "/active" n) = fileAt s.inFiles (pathBelow dname "/incoming" n) ∧
        fileAt (next s names granted).1.inFiles (pathBelow dname "/incoming" n) = none
      else
        (next s names granted).2 = none ∧ (next s names granted).1.inFiles = s.inFiles :=
  next_below (e ▸ below_after h ins acs hs) hn granted

/-- The numbers of the files in `incoming`. -/
def waitingNums (s : Spool) : List Nat := s.inFiles.map (·.2.num)

/-- The numbers of the files given out. -/
def givenNums (l : List (Bytes × Option File)) : List Nat := l.flatMap fun x => x.2.toList.map (·.num)

theorem without_nums (d : Files) (p : Bytes) : ((without d p).map (·.2.num)).Sublist (d.map (·.2.num)) :=
  List.filter_sublist.map _

theorem moved_nums {d : Files} {p : Bytes} {f : File} (h : fileAt d p = some f) :
    (f.num :: (without d p).map (·.2.num)).Subperm (d.map (·.2.num)) := by
  induction d with
  | nil => simp [fileAt] at h
  | cons x d ih =>
    obtain ⟨q, g⟩ := x
    rw [fileAt_cons] at h
    by_cases hq : p = q
    · rw [if_pos hq] at h
      injection h with h
      subst h hq
      have : without ((p, g) :: d) p = without d p := by simp [without]
      rw [this]
      exact (List.subperm_cons _).2 (without_nums d p).subperm
    · rw [if_neg hq] at h
      have : without ((q, g) :: d) p = (q, g) :: without d p := by
        unfold without
        rw [List.filter_cons, if_pos (by simpa using fun e : q = p => hq e.symm)]
      rw [this]
      simp only [List.map_cons]
      exact (List.Perm.swap _ _ _).subperm.trans ((List.subperm_cons _).2 (ih h))

theorem next_nums (s : Spool) (names : List Bytes) (granted : Bool) :
    (givenNums ((next s names granted).2.toList.map fun p => (p, fileAt (next s names granted).1.acFiles p)) ++
      waitingNums (next s names granted).1).Subperm (waitingNums s) := by
  unfold next
  cases pick s names with
  | none => simpa [givenNums] using List.Subperm.refl _
  | some n =>
    simp only
    have ein : ∀ p, (clear s p).inFiles = s.inFiles ∧ (clear s p).active = s.active := by
      intro p; unfold clear; split
      · exact ⟨rfl, rfl⟩
      · split <;> exact ⟨rfl, rfl⟩
    generalize hc : clear s (Spooldir.cstr (pathIn s.active n)) = c
    have hin : c.inFiles = s.inFiles := by rw [← hc]; exact (ein _).1
    generalize Spooldir.cstr (pathIn c.incoming n) = src
    generalize hdst : Spooldir.cstr (pathIn c.active n) = dst
    cases hr : rename c src dst granted with
    | none => simpa [givenNums, waitingNums, hin] using List.Subperm.refl _
    | some c' =>
      unfold rename at hr
      split at hr
      · next f hf ha =>
        injection hr with hr
        subst hr
        simp only [hdst, Option.toList, List.map_cons, List.map_nil, givenNums, List.flatMap_cons, List.flatMap_nil, fileAt_cons, if_true,
          waitingNums, List.append_nil, List.cons_append, List.nil_append]
        rw [← hin]
        exact moved_nums hf
      · next f g hf ha =>
        split at hr
        · exact absurd hr (by simp)
        · injection hr with hr
          subst hr
          simp only [hdst, Option.toList, List.map_cons, List.map_nil, givenNums, List.flatMap_cons, List.flatMap_nil, fileAt_cons, if_true,
            waitingNums, List.append_nil, List.cons_append, List.nil_append]
          rw [← hin]
          exact moved_nums hf
      · exact absurd hr (by simp)

theorem givenNums_append (a b : List (Bytes × Option File)) : givenNums (a ++ b) = givenNums a ++ givenNums b := by simp [givenNums]

theorem run_nums : ∀ (hs : List Happens) (s : Spool), (givenNums (Spooldir.run s hs)).Subperm (waitingNums s ++ arrivals hs)
  | [], s => by simp [Spooldir.run, givenNums]
  | h :: hs, s => by
    rw [Spooldir.run, givenNums_append]
    have ih := run_nums hs (happen s h).1
    cases h with
    | arrives n f =>
      refine (show (givenNums (Spooldir.run (happen s (.arrives n f)).1 hs)).Subperm _ from ih).trans ?_
      simp only [happen, waitingNums, List.map_cons, arrivals, List.flatMap_cons, List.cons_append, List.nil_append]
      refine (List.Perm.subperm ?_).trans ((List.subperm_append_right _).2 (without_nums s.inFiles (Spooldir.cstr (pathIn s.incoming n))).subperm)
      exact List.perm_middle.symm
    | vanishes n =>
      refine (show (givenNums (Spooldir.run (happen s (.vanishes n)).1 hs)).Subperm _ from ih).trans ?_
      exact (List.subperm_append_right _).2 (without_nums s.inFiles (Spooldir.cstr (pathIn s.incoming n))).subperm
    | finished n => exact ih
    | call ns g =>
      have := next_nums s ns g
      simp only [happen] at ih ⊢
      refine (List.subperm_append_left _ |>.2 ih).trans ?_
      rw [← List.append_assoc]
      exact (List.subperm_append_right _).2 this

/-- C79: whatever calls, arrivals and removals follow one another, no file is given out twice, and none that did not arrive or was there at
first. -/
theorem C79_once (dname : Bytes) (ins acs : Files) (hs : List Happens) (h : (ins.map (·.2.num) ++ arrivals hs).Nodup) :
    (givenNums (Spooldir.run (Spooldir.init dname ins acs) hs)).Nodup ∧
      ∀ k ∈ givenNums (Spooldir.run (Spooldir.init dname ins acs) hs), k ∈ ins.map (·.2.num) ++ arrivals hs := by
  have := run_nums hs (Spooldir.init dname ins acs)
  obtain ⟨l, hp, hl⟩ := id this
  exact ⟨hp.nodup_iff.1 (hl.nodup h), fun k hk => this.subset hk⟩

/-- C79: each path returned leads to a file when it is returned. -/
theorem C79_there : ∀ (hs : List Happens) (s : Spool), ∀ x ∈ Spooldir.run s hs, x.2.isSome
  | [], _, x, hx => by simp [Spooldir.run] at hx
  | h :: hs, s, x, hx => by
    rw [Spooldir.run, List.mem_append] at hx
    rcases hx with hx | hx
    · cases h with
      | arrives n f => simp [happen] at hx
      | vanishes n => simp [happen] at hx
      | finished n => simp [happen] at hx
      | call ns g =>
        simp only [happen, List.mem_map] at hx
        obtain ⟨p, hp, rfl⟩ := hx
        unfold next at hp ⊢
        cases hk : pick s ns with
        | none => rw [hk] at hp; simp at hp
        | some n =>
          rw [hk] at hp
          simp only at hp ⊢
          cases hr : rename (clear s (Spooldir.cstr (pathIn s.active n))) (Spooldir.cstr (pathIn (clear s (Spooldir.cstr (pathIn s.active n))).incoming n))
              (Spooldir.cstr (pathIn (clear s (Spooldir.cstr (pathIn s.active n))).active n)) g with
          | none => rw [hr] at hp; simp at hp
          | some c =>
            rw [hr] at hp
            simp only [Option.toList, List.mem_singleton] at hp
            subst hp
            unfold rename at hr
            split at hr
            · injection hr with hr
              subst hr
              simp [fileAt_cons]
            · split at hr
              · exact absurd hr (by simp)
              · injection hr with hr
                subst hr
                simp [fileAt_cons]
            · exact absurd hr (by simp)
    · exact C79_there hs _ x hx

/-- A directory with two files offered, one with a dot and a directory. -/
def spoolAt : Spool := Spooldir.init (lit "/s")
  [(lit "/s/incoming/.b", ⟨1, .regular⟩), (lit "/s/incoming/d", ⟨2, .directory⟩), (lit "/s/incoming/f", ⟨3, .regular⟩),
    (lit "/s/incoming/g", ⟨4, .regular⟩)] [(lit "/s/active/g", ⟨5, .regular⟩)]

example : Below (lit "/s") spoolAt ∧
    next spoolAt [lit ".b", lit "gone", lit "d", lit "g", lit "f"] true =
      ({ spoolAt with
          inFiles := [(lit "/s/incoming/.b", ⟨1, .regular⟩), (lit "/s/incoming/d", ⟨2, .directory⟩), (lit "/s/incoming/f", ⟨3, .regular⟩)]
          acFiles := [(lit "/s/active/g", ⟨4, .regular⟩)] }, some (lit "/s/active/g")) :=
  ⟨below_init (by decide) _ _, by decide +kernel⟩

example : Spooldir.run spoolAt [.call [lit "f"] true, .arrives (lit "f") ⟨6, .regular⟩, .call [lit ".b", lit "d"] true, .call [lit "f", lit "g"] true,
      .finished (lit "f"), .vanishes (lit "g"), .call [lit "g", lit "f"] true] =
    [(lit "/s/active/f", some ⟨3, .regular⟩), (lit "/s/active/f", some ⟨6, .regular⟩)] := by decide +kernel

/-- A file that was given out is lost: another of the same name has arrived, the file in `active` is removed, and moving the new one
fails; the call returns no path. -/
theorem C79_lost_counterexample : ∃ (hs : List Happens) (s s' : Spool), Below (lit "/s") s ∧
    Spooldir.run s hs = [(lit "/s/active/f", some ⟨3, .regular⟩)] ∧ (hs.foldl (fun s h => (happen s h).1) s) = s' ∧
    fileAt s'.acFiles (lit "/s/active/f") = none ∧ (hs.all fun | .finished _ => false | _ => true) = true :=
  ⟨[.call [lit "f"] true, .arrives (lit "f") ⟨6, .regular⟩, .call [lit "f"] false], spoolAt, _, below_init (by decide) _ _,
    by decide +kernel, rfl, by decide +kernel, by decide +kernel⟩

end Verif.Props
