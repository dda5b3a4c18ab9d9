import Verif.Spec.Zonefile

/-!
# C80: reading zone files
-/

namespace Verif.Props
open Verif.Spec Verif.Zonefile

/-- The numbers of the records of a file. -/
def numsOf (is : List Item) : List Nat := (recordsOf is).map (·.num)

theorem loop_told : ∀ (is : List Item) (z : Zone),
    (readLoop z is).1.valid = z.valid ∧ (readLoop z is).1.rrSoa = z.rrSoa ∧ (readLoop z is).1.lost = z.lost ∧
    (readLoop z is).1.count = z.count + (givenOut [(readLoop z is).2]).length ∧
    ((givenOut [(readLoop z is).2]).map (·.num) ++ ((readLoop z is).1.released ++ numsOf (readLoop z is).1.rest)).Perm
      (z.released ++ numsOf is) ∧
    ((tellings is = [] ∧ (readLoop z is).2 = .none ∧ (readLoop z is).1.eof = true ∧ (readLoop z is).1.rest = []) ∨
      (tellings is = (readLoop z is).2 :: tellings (readLoop z is).1.rest ∧ (readLoop z is).1.eof = z.eof))
  | [], z => ⟨rfl, rfl, rfl, rfl, .refl _, .inl ⟨rfl, rfl, rfl, rfl⟩⟩
  | .blank :: is, z => loop_told is z
  | .origin :: is, z => loop_told is { z with origin := true }
  | .bad :: is, z => ⟨rfl, rfl, rfl, rfl, .refl _, .inr ⟨rfl, rfl⟩⟩
  | .record r :: is, z => by
    rw [readLoop]
    by_cases h : r.soa = true
    · rw [if_pos h]
      refine ⟨rfl, rfl, rfl, rfl, ?_, .inr ⟨by simp [tellings, h], rfl⟩⟩
      exact List.perm_middle.symm
    · rw [if_neg h]
      refine ⟨rfl, rfl, rfl, rfl, ?_, .inr ⟨by simp [tellings, h], rfl⟩⟩
      show (r.num :: (z.released ++ numsOf is)).Perm (z.released ++ r.num :: numsOf is)
      exact List.perm_middle.symm

/-- An object between calls: the SOA has been given out, or is the next. -/
structure Open (z : Zone) : Prop where
  valid : z.valid = true
  soa : ∀ r, z.rrSoa = some r → z.count = 1 ∧ z.eof = false
  eof : z.eof = true → z.rest = []

/-- What will be told. -/
def ahead (z : Zone) : List Read := z.rrSoa.toList.map .rr ++ tellings z.rest

/-- Every record that is not given out: the SOA kept, those freed and those not read. -/
def keptNums (z : Zone) : List Nat := (destroy z).1 ++ numsOf z.rest

theorem read_told {z : Zone} (h : Open z) :
    Open (read z).1 ∧ (read z).1.lost = z.lost ∧
    (ahead z = [] ∧ (read z).2 = .none ∧ ahead (read z).1 = [] ∨ ahead z = (read z).2 :: ahead (read z).1) ∧
    ((givenOut [(read z).2]).map (·.num) ++ keptNums (read z).1).Perm (keptNums z) ∧
    (read z).1.count = z.count + (if z.rrSoa = none then (givenOut [(read z).2]).length else 0) ∧ (read z).1.rrSoa = none := by
  unfold Zonefile.read
  by_cases he : z.eof = true
  · have hs : z.rrSoa = none := by
      cases hz : z.rrSoa with
      | none => rfl
      | some r => have := (h.soa r hz).2; rw [he] at this; exact absurd this (by simp)
    rw [if_pos he]
    refine ⟨h, rfl, .inl ?_, .refl _, by simp [hs, givenOut], hs⟩
    simp [ahead, hs, h.eof he, tellings]
  · rw [if_neg he, if_neg (by simp [h.valid])]
    cases hz : z.rrSoa with
    | some r =>
      simp only [if_pos (h.soa r hz).1]
      refine ⟨⟨h.valid, by simp, h.eof⟩, by simp, .inr (by simp [ahead, hz]), ?_, by simp⟩
      simp [keptNums, destroy, hz, givenOut]
    | none =>
      simp only
      obtain ⟨g1, g2, g3, g4, g5, g6⟩ := loop_told z.rest z
      rw [hz] at g2
      refine ⟨⟨by rw [g1]; exact h.valid, by simp [g2], ?_⟩, g3, ?_, ?_, by simp [g4], g2⟩
      · intro h'
        rcases g6 with ⟨_, _, _, g⟩ | ⟨_, g⟩
        · exact g
        · rw [g] at h'; exact absurd h' he
      · rcases g6 with ⟨k1, k2, _, k4⟩ | ⟨k1, _⟩
        · exact .inl ⟨by simp [ahead, hz, k1], k2, by simp [ahead, g2, k4, tellings]⟩
        · exact .inr (by simp [ahead, hz, g2, k1])
      · simpa [keptNums, destroy, hz, g2] using g5

theorem firstOf_nil {α : Type} (x : α) : ∀ n, firstOf x n [] = List.replicate n x
  | 0 => rfl
  | n + 1 => by rw [firstOf, firstOf_nil x n, List.replicate_succ]

theorem reads_told : ∀ (n : Nat) {z : Zone}, Open z → (reads n z).2 = firstOf .none n (ahead z) ∧ (reads n z).1.lost = z.lost ∧
    ((givenOut (reads n z).2).map (·.num) ++ keptNums (reads n z).1).Perm (keptNums z) ∧
    (z.rrSoa = none → (reads n z).1.count = z.count + (givenOut (reads n z).2).length)
  | 0, z, _ => ⟨by simp [reads, firstOf], rfl, .refl _, fun _ => rfl⟩
  | n + 1, z, h => by
    obtain ⟨g1, g2, g3, g4, g5, g6⟩ := read_told h
    obtain ⟨i1, i2, i3, i4⟩ := reads_told n g1
    have e1 : (reads (n + 1) z).1 = (reads n (read z).1).1 := rfl
    have e2 : (reads (n + 1) z).2 = (read z).2 :: (reads n (read z).1).2 := rfl
    have e3 : givenOut ((read z).2 :: (reads n (read z).1).2) = givenOut [(read z).2] ++ givenOut (reads n (read z).1).2 := by
      unfold givenOut
      rw [← List.filterMap_append]
      rfl
    rw [e1, e2, e3]
    refine ⟨?_, i2.trans g2, ?_, ?_⟩
    · rcases g3 with ⟨k1, k2, k3⟩ | k
      · rw [k1, k2, i1, k3, firstOf]
      · rw [k, i1, firstOf]
    · rw [List.map_append, List.append_assoc]
      exact (i3.append_left _).trans g4
    · intro hz
      rw [i4 g6, g5, if_pos hz, List.length_append, Nat.add_assoc]

theorem soa_found (ends : Item) : ∀ {pre : List Item} (z : Zone) {r : Rec} (post : List Item), (∀ i ∈ pre, Remark i) → r.soa = true →
    readSoa ends z (pre ++ .record r :: post) =
      .ok ({ z with count := 1, rrSoa := some r, lost := if z.origin = true ∨ .origin ∈ pre then z.lost + 1 else z.lost, origin := true,
                    rest := post }, true)
  | [], z, r, post, _, hr => by simp [readSoa, hr]
  | i :: pre, z, r, post, h, hr => by
    have ih := fun z => soa_found ends (pre := pre) z post (fun x hx => h x (by simp [hx])) hr
    rcases h i (by simp) with rfl | rfl
    · rw [List.cons_append, readSoa, ih]
      simp
    · rw [List.cons_append, readSoa, ih]
      simp

/-- C80: for a file whose first record is an SOA, whatever the entries: an object is made, whose count is one and whose serial number
is that of the SOA (if it has none, asking for it ends the program); the calls of `zonefile_read` give the SOA, then for each further entry in turn what it is told as, and then none;
the count is that of the records given out; and if the object is destroyed then, each record read has been given out or freed, exactly
once, and all origins have been freed unless one was set before the SOA. -/
theorem C80_reads (ends : Item) {pre : List Item} (hpre : ∀ i ∈ pre, Remark i) {r : Rec} (hr : r.soa = true) (post : List Item) (n : Nat) :
    ∃ z, Zonefile.init ends (pre ++ .record r :: post) = .ok (.inl z) ∧ getCount z = 1 ∧
      (∀ k, r.serial = some k → getSerial z = .ok k) ∧
      (r.serial = none → getSerial z = .fault .abort) ∧
      (reads n z).2 = firstOf .none n (.rr r :: tellings post) ∧
      getCount (reads n z).1 = max 1 (givenOut (reads n z).2).length ∧
      ((givenOut (reads n z).2).map (·.num) ++ (destroy (reads n z).1).1 ++ numsOf (reads n z).1.rest).Perm
        (numsOf (pre ++ .record r :: post)) ∧
      (destroy (reads n z).1).2 = if .origin ∈ pre then 1 else 0 := by
  have hnp : numsOf pre = [] := by
    clear hr
    induction pre with
    | nil => rfl
    | cons i pre ih =>
      have := ih fun x hx => hpre x (by simp [hx])
      rcases hpre i (by simp) with rfl | rfl <;> exact this
  have hn : numsOf (pre ++ .record r :: post) = r.num :: numsOf post := by
    have : numsOf (pre ++ .record r :: post) = numsOf pre ++ numsOf (.record r :: post) := by simp [numsOf, recordsOf]
    rw [this, hnp]
    rfl
  refine ⟨⟨false, true, 1, some r, true, post, [], if .origin ∈ pre then 1 else 0⟩, ?_, rfl, ?_, ?_, ?_⟩
  · unfold Zonefile.init
    rw [soa_found ends _ post hpre hr]
    simp
  · intro k hk
    simp [getSerial, hk]
  · intro hk
    simp [getSerial, hk]
  generalize hz : (⟨false, true, 1, some r, true, post, [], if .origin ∈ pre then 1 else 0⟩ : Zone) = z
  have ho : Open z := by
    subst hz
    exact ⟨rfl, fun _ _ => ⟨rfl, rfl⟩, fun h => absurd h (by simp)⟩
  obtain ⟨i1, i2, i3, _⟩ := reads_told n ho
  refine ⟨by rw [i1, ← hz]; rfl, ?_, ?_, ?_⟩
  · cases n with
    | zero => subst hz; rfl
    | succ n =>
      obtain ⟨g1, _, _, _, g5, g6⟩ := read_told ho
      obtain ⟨_, _, _, k⟩ := reads_told n g1
      have e1 : (reads (n + 1) z).1 = (reads n (read z).1).1 := rfl
      have e2 : (reads (n + 1) z).2 = .rr r :: (reads n (read z).1).2 := by subst hz; rfl
      have e3 : givenOut (.rr r :: (reads n (read z).1).2) = r :: givenOut (reads n (read z).1).2 := rfl
      have e4 : (read z).1.count = 1 := by subst hz; rfl
      rw [e1, e2, e3, getCount, k g6, e4, List.length_cons]
      omega
  · rw [hn, List.append_assoc]
    refine i3.trans ?_
    subst hz
    exact .refl _
  · show (reads n z).1.lost = _
    rw [i2, ← hz]

/-- C80: if no further SOA follows and nothing that cannot be read, the calls give all records in order, then none.  Missing: files with a
further SOA, behind which the calls read on, though they have said that there is no more. -/
theorem C80_all_partial (ends : Item) {pre : List Item} (hpre : ∀ i ∈ pre, Remark i) {r : Rec} (hr : r.soa = true) {post : List Item}
    (hp : ∀ i ∈ post, i ≠ .bad ∧ ∀ q, i = .record q → q.soa = false) (n : Nat) :
    ∃ z, Zonefile.init ends (pre ++ .record r :: post) = .ok (.inl z) ∧
      (reads n z).2 = firstOf .none n ((recordsOf (pre ++ .record r :: post)).map .rr) := by
  obtain ⟨z, h1, -, -, -, h2, -⟩ := C80_reads ends hpre hr post n
  refine ⟨z, h1, ?_⟩
  rw [h2]
  congr 1
  have e1 : recordsOf pre = [] := by
    clear h1
    induction pre with
    | nil => rfl
    | cons i pre ih =>
      have := ih fun x hx => hpre x (by simp [hx])
      rcases hpre i (by simp) with rfl | rfl <;> exact this
  have e2 : tellings post = (recordsOf post).map .rr := by
    clear h1 h2
    induction post with
    | nil => rfl
    | cons i post ih =>
      have := ih fun x hx => hp x (by simp [hx])
      cases i with
      | record q =>
        have hq := (hp (.record q) (by simp)).2 q rfl
        have e : tellings (.record q :: post) = .rr q :: tellings post := by simp [tellings, hq]
        rw [e, this]
        rfl
      | blank => exact this
      | origin => exact this
      | bad => exact absurd rfl (hp .bad (by simp)).1
  have e3 : recordsOf (pre ++ .record r :: post) = recordsOf pre ++ recordsOf (.record r :: post) := by simp [recordsOf]
  rw [e3, e1, e2]
  rfl

/-- C80: for any other file there is no object, and a record read is freed; unless the file has only entries that are neither records nor
errors, and libldns does not say at the end of the file that it cannot read: then the function does not return. -/
theorem C80_refuses (ends : Item) {pre : List Item} (hpre : ∀ i ∈ pre, Remark i) (post : List Item) :
    (∀ r : Rec, r.soa = false → Zonefile.init ends (pre ++ .record r :: post) = .ok (.inr ([r.num], 0))) ∧
    Zonefile.init ends (pre ++ .bad :: post) = .ok (.inr ([], 0)) ∧
    Zonefile.init ends pre = if ends = .bad then .ok (.inr ([], 0)) else .fault .diverge := by
  have key : ∀ (z : Zone), z.released = [] → z.lost = 0 → z.rrSoa = none →
      (∀ r : Rec, r.soa = false → ∃ z', readSoa ends z (pre ++ .record r :: post) = .ok (z', false) ∧ destroy z' = ([r.num], 0)) ∧
      (∃ z', readSoa ends z (pre ++ .bad :: post) = .ok (z', false) ∧ destroy z' = ([], 0)) ∧
      (if ends = .bad then ∃ z', readSoa ends z pre = .ok (z', false) ∧ destroy z' = ([], 0) else readSoa ends z pre = .fault .diverge) := by
    induction pre with
    | nil =>
      intro z h1 h2 h3
      refine ⟨fun r hr => ⟨_, by simp [readSoa, hr]; rfl, by simp [destroy, h1, h2, h3]⟩, ⟨_, rfl, by simp [destroy, h1, h2, h3]⟩, ?_⟩
      split
      · next h => exact ⟨{ z with valid := false, rest := [] }, by simp [readSoa, h], by simp [destroy, h1, h2, h3]⟩
      · next h => simp [readSoa, h]
    | cons i pre ih =>
      intro z h1 h2 h3
      have ih := ih fun x hx => hpre x (by simp [hx])
      rcases hpre i (by simp) with rfl | rfl
      · exact ih z h1 h2 h3
      · exact ih { z with origin := true } h1 h2 h3
  obtain ⟨k1, k2, k3⟩ := key ⟨false, true, 0, none, false, [], [], 0⟩ rfl rfl rfl
  unfold Zonefile.init
  refine ⟨fun r hr => ?_, ?_, ?_⟩
  · obtain ⟨z', e1, e2⟩ := k1 r hr
    rw [e1]
    simp [e2]
  · obtain ⟨z', e1, e2⟩ := k2
    rw [e1]
    simp [e2]
  · by_cases h : ends = .bad
    · rw [if_pos h] at k3 ⊢
      obtain ⟨z', e1, e2⟩ := k3
      rw [e1]
      simp [e2]
    · rw [if_neg h] at k3 ⊢
      rw [k3]
      rfl

/-- The file whose name ends with `.gz` is read through `zcat`, any other itself. -/
def sourceOf (name : Bytes) : Source := if lit ".gz" <:+ name then .command (lit "zcat " ++ name) else .file name

theorem source_spec (name : Bytes) : source name = .ok (sourceOf name) := by
  unfold source sourceOf
  by_cases h : name.length ≥ 3
  · obtain ⟨l, a, b, c, rfl⟩ : ∃ l a b c, name = l ++ [a, b, c] := by
      have e := (List.take_append_drop (name.length - 3) name).symm
      have hl : (name.drop (name.length - 3)).length = 3 := by rw [List.length_drop]; omega
      match hd : name.drop (name.length - 3), hl with
      | [a, b, c], _ => exact ⟨_, a, b, c, by rw [← hd]; exact e⟩
    rw [if_pos h]
    have e : (lit ".gz" <:+ l ++ [a, b, c]) ↔ a = 46 ∧ b = 103 ∧ c = 122 := by
      have h0 : lit ".gz" = [46, 103, 122] := by decide +kernel
      rw [h0]
      constructor
      · rintro ⟨t, ht⟩
        have := (List.append_inj' ht rfl).2
        simp only [List.cons.injEq, and_true] at this
        exact ⟨this.1.symm, this.2.1.symm, this.2.2.symm⟩
      · rintro ⟨rfl, rfl, rfl⟩
        exact List.suffix_append _ _
    have g1 : (l ++ [a, b, c])[(l ++ [a, b, c]).length - 3]? = some a := by simp
    have g2 : (l ++ [a, b, c])[(l ++ [a, b, c]).length - 2]? = some b := by
      rw [List.getElem?_append_right (by simp)]
      simp
    have g3 : (l ++ [a, b, c])[(l ++ [a, b, c]).length - 1]? = some c := by
      rw [List.getElem?_append_right (by simp)]
      simp
    rw [g1, g2, g3]
    simp only [e]
  · rw [if_neg h, if_neg]
    intro h'
    have := h'.length_le
    have h3 : (lit ".gz").length = 3 := by decide +kernel
    omega

/-- C80: a file whose name ends with `.gz` is read through `zcat`, any other itself, and if it can be opened the object is made from what is
read there, as the other theorems say; no byte outside the name is read.  Missing: a file that cannot be opened, for which an object is
lost. -/
theorem C80_source_partial (ends : Item) (opens : Source → Option (List Item)) (name : Bytes) {is : List Item}
    (h : opens (sourceOf name) = some is) : initFname ends opens name = (Zonefile.init ends is).bind fun x => .ok (x, 0) := by
  unfold initFname
  rw [source_spec, Out.ok_bind, h]
  rfl

/-- A file that cannot be opened: there is no object for the caller, but one was allocated. -/
theorem C80_open_counterexample (ends : Item) (opens : Source → Option (List Item)) (name : Bytes) (h : opens (sourceOf name) = none) :
    initFname ends opens name = .ok (.inr ([], 0), 1) := by
  unfold initFname
  rw [source_spec, Out.ok_bind, h]

example : sourceOf (lit "a.gz") = .command (lit "zcat a.gz") ∧ sourceOf (lit "gz") = .file (lit "gz") ∧
    source (lit ".gz") = .ok (.command (lit "zcat .gz")) ∧ source (lit "a.gzx") = .ok (.file (lit "a.gzx")) ∧
    (initFname .bad (fun s => if s = .file (lit "z") then some [.record ⟨1, false, none⟩] else none) (lit "z")) = .ok (.inr ([1], 0), 0) ∧
    (initFname .bad (fun s => if s = .file (lit "z") then some [.record ⟨1, false, none⟩] else none) (lit "y")) = .ok (.inr ([], 0), 1) := by
  decide +kernel

/-- The calls made on the object for a file. -/
def readFile (n : Nat) (is : List Item) : Option (Zone × List Read) :=
  match Zonefile.init .bad is with
  | .ok (.inl z) => some (reads n z)
  | _ => none

/-- A file with comments, an SOA and three records. -/
def zoneItems : List Item := [.blank, .record ⟨1, true, some 2024⟩, .blank, .record ⟨2, false, none⟩, .origin, .record ⟨3, false, none⟩,
  .record ⟨4, false, none⟩, .blank]

example : (readFile 7 zoneItems).map (·.2) =
      some [.rr ⟨1, true, some 2024⟩, .rr ⟨2, false, none⟩, .rr ⟨3, false, none⟩, .rr ⟨4, false, none⟩, .none, .none, .none] ∧
    (readFile 2 zoneItems).map (fun x => (getCount x.1, destroy x.1, numsOf x.1.rest)) = some (2, ([], 0), [3, 4]) ∧
    (readFile 0 zoneItems).map (fun x => (getCount x.1, destroy x.1)) = some (1, ([1], 0)) := by decide +kernel

/-- Behind a further SOA the calls go on, after one that has said that there are no more records. -/
theorem C80_counterexample : (readFile 4 [.record ⟨1, true, some 1⟩, .record ⟨2, true, some 1⟩, .record ⟨3, false, none⟩]).map (·.2) =
    some [.rr ⟨1, true, some 1⟩, .none, .rr ⟨3, false, none⟩, .none] := by decide +kernel

/-- After the first call of `zonefile_read` the serial number cannot be asked for: a null pointer is used. -/
theorem C80_serial_counterexample (ends : Item) {pre : List Item} (hpre : ∀ i ∈ pre, Remark i) {r : Rec} (hr : r.soa = true)
    (post : List Item) (n : Nat) : ∃ z, Zonefile.init ends (pre ++ .record r :: post) = .ok (.inl z) ∧
      getSerial (reads (n + 1) z).1 = .fault .nullDeref := by
  refine ⟨⟨false, true, 1, some r, true, post, [], if .origin ∈ pre then 1 else 0⟩, ?_, ?_⟩
  · unfold Zonefile.init
    rw [soa_found ends _ post hpre hr]
    simp
  · have none_after : ∀ (n : Nat) (z : Zone), Open z → z.rrSoa = none → (reads n z).1.rrSoa = none := by
      intro n
      induction n with
      | zero => intro z _ h; exact h
      | succ n ih =>
        intro z h _
        obtain ⟨g1, _, _, _, _, g6⟩ := read_told h
        exact ih _ g1 g6
    have ho : Open ⟨false, true, 1, some r, true, post, [], if .origin ∈ pre then 1 else 0⟩ :=
      ⟨rfl, fun _ _ => ⟨rfl, rfl⟩, fun h => absurd h (by simp)⟩
    obtain ⟨g1, _, _, _, _, g6⟩ := read_told ho
    have := none_after n _ g1 g6
    unfold getSerial
    rw [show (reads (n + 1) ⟨false, true, 1, some r, true, post, [], if .origin ∈ pre then 1 else 0⟩).1.rrSoa = none from this]

/-- An origin set before the SOA is never freed. -/
theorem C80_leak_counterexample : (readFile 3 [.origin, .record ⟨1, true, some 1⟩]).map (fun x => (x.2, destroy x.1)) =
    some ([.rr ⟨1, true, some 1⟩, .none, .none], ([], 1)) := by decide +kernel

end Verif.Props
