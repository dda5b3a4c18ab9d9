import Verif.Model.StatsText
import Verif.Lemmas.Clocked
import Verif.Lemmas.LookupRun
import Verif.Spec.StatsText
import Verif.Lemmas.Json
import Verif.Lemmas.Calendar

/-! # Lemmas about the statistics of `dnstable_lookup` -/

namespace Verif
open Spec

theorem stageLoop_names : stageLoop = stageNames := by decide +kernel

theorem categoryLoop_names : categoryLoop = categoryNames := by decide +kernel

/-- The caller's variables are always set. -/
theorem getCount_defined (it : IterStats) {s c : Nat} (hs : s < 10) (hc : c < 4) (f : Bool) (n : Nat) :
    (iterGetCount (some it) s c f (some n)).found = (reading it s c).isSome ∧
    (∀ k, reading it s c = some k → (iterGetCount (some it) s c f (some n)).count = k) := by
  have hd : ∀ (f : Bool) (n : Nat), (iterGetCount (some it) s c f (some n)).found = (iterGetCount (some it) s c false (some 0)).found ∧
      (iterGetCount (some it) s c f (some n)).count = (iterGetCount (some it) s c false (some 0)).count := by
    intro f n
    have : s = 0 ∨ s = 1 ∨ s = 2 ∨ s = 3 ∨ s = 4 ∨ s = 5 ∨ s = 6 ∨ s = 7 ∨ s = 8 ∨ s = 9 := by omega
    have h2 : c = 0 ∨ c = 1 ∨ c = 2 ∨ c = 3 := by omega
    rcases this with rfl | rfl | rfl | rfl | rfl | rfl | rfl | rfl | rfl | rfl <;>
      rcases h2 with rfl | rfl | rfl | rfl <;> exact ⟨rfl, rfl⟩
  rw [(hd f n).1, (hd f n).2]
  unfold reading
  simp only
  split
  · next h => exact ⟨by simp [h], fun k hk => by simpa using hk⟩
  · next h => exact ⟨by simpa using h, fun k hk => by cases hk⟩

theorem totalLoop_eq (it : IterStats) {c : Nat} (hc : c < 4) (cnt0 : Nat) :
    ∀ (l : List (Nat × Bytes)) (found : Bool) (total : Nat), (∀ s ∈ l, s.1 < 10) → total < 2 ^ 64 →
      (totalLoop it c cnt0 l found total).1 = (total + (l.filterMap fun s => reading it s.1 c).sum) % 2 ^ 64
  | [], _, total, _, ht => by simp [totalLoop, Nat.mod_eq_of_lt ht]
  | (s, x) :: l, found, total, hl, ht => by
    obtain ⟨h1, h2⟩ := getCount_defined it (hl (s, x) (by simp)) hc found cnt0
    rw [totalLoop]
    cases hr : reading it s c with
    | none =>
      rw [hr] at h1
      rw [h1, totalLoop_eq it hc cnt0 l _ _ (fun y hy => hl y (by simp [hy])) (by simpa using ht)]
      simp [List.filterMap_cons, hr]
    | some k =>
      rw [hr] at h1
      rw [h1, h2 k hr]
      simp only [Option.isSome_some, if_true]
      rw [totalLoop_eq it hc cnt0 l _ _ (fun y hy => hl y (by simp [hy])) (Nat.mod_lt _ (by decide))]
      simp only [List.filterMap_cons, hr, List.sum_cons, Nat.mod_add_mod]
      rw [Nat.add_assoc]

theorem stages_lt : ∀ s ∈ stageLoop, s.1 < 10 := by decide +kernel

theorem categories_lt : ∀ c ∈ categoryLoop, c.1 < 4 := by decide +kernel

theorem countLine_line (w : Nat) (label : Bytes) (n : Nat) :
    ColumnLine w (label, fun v => Numeral v n) (countLine w label n) :=
  ⟨decimal n, decimal_numeral n, by simp [countLine, padRight]⟩

theorem Columns.nil (w : Nat) : Columns w [] [] := ⟨[], rfl, trivial⟩

theorem Columns.cons {w : Nat} {row : Bytes × (Bytes → Prop)} {line : Bytes} {rows : List (Bytes × (Bytes → Prop))} {text : Bytes}
    (h : ColumnLine w row line) (h' : Columns w rows text) : Columns w (row :: rows) (line ++ text) := by
  obtain ⟨ls, rfl, ha⟩ := h'
  exact ⟨line :: ls, rfl, h, ha⟩

theorem summaryLines_columns (it : IterStats) (cnt0 w : Nat) : ∀ (l : List (Nat × Bytes)) (found : Bool), (∀ c ∈ l, c.1 < 4) →
    Columns w ((l.map fun c => (c.2, (stageNames.filterMap fun s => reading it s.1 c.1).sum % 2 ^ 64)).map
      fun r => (r.1, fun v => Numeral v r.2)) (summaryLines it cnt0 w l found)
  | [], _, _ => Columns.nil w
  | (c, x) :: l, found, hl => by
    unfold summaryLines
    simp only [List.map_cons]
    refine Columns.cons ?_ (summaryLines_columns it cnt0 w l _ fun y hy => hl y (by simp [hy]))
    rw [totalLoop_eq it (hl (c, x) (by simp)) cnt0 _ _ _ stages_lt (by decide), stageLoop_names, Nat.zero_add]
    exact countLine_line w x _

/-- The counter at a pair of a stage and a category. -/
def pairRow (it : IterStats) (p : (Nat × Bytes) × Nat × Bytes) : Option (Bytes × Nat) :=
  (reading it p.1.1 p.2.1).map fun n => (p.1.2 ++ lit " " ++ p.2.2, n % 2 ^ 64)

theorem detailRows_pairs (it : IterStats) : detailRows (reading it) = statPairs.filterMap (pairRow it) := by
  unfold detailRows statPairs
  rw [stageLoop_names, categoryLoop_names, List.filterMap_flatMap]
  simp only [List.filterMap_map]
  rfl

theorem pairs_ok : ∀ p ∈ statPairs, p.1.1 < 10 ∧ p.2.1 < 4 ∧ (p.1.2 ++ 32 :: p.2.2).length ≤ 127 := by decide +kernel

theorem detailWidth_ge (it : IterStats) : ∀ (l : List ((Nat × Bytes) × Nat × Bytes)) (found : Bool) (cnt w : Nat),
    (∀ p ∈ l, p.1.1 < 10 ∧ p.2.1 < 4) →
    w ≤ (detailWidth it l found cnt w).1 ∧
    ∀ r ∈ l.filterMap (pairRow it), r.1.length ≤ (detailWidth it l found cnt w).1
  | [], _, _, w, _ => ⟨Nat.le_refl _, by simp⟩
  | ((s, x), c, y) :: l, found, cnt, w, hl => by
    obtain ⟨h1, h2⟩ := hl ((s, x), c, y) (by simp)
    obtain ⟨h3, -⟩ := getCount_defined it h1 h2 found cnt
    have ih := fun f n w => detailWidth_ge it l f n w fun p hp => hl p (by simp [hp])
    rw [detailWidth]
    simp only
    rw [h3]
    cases hr : reading it s c with
    | none =>
      have hp : pairRow it ((s, x), c, y) = none := by simp [pairRow, hr]
      simp only [List.filterMap_cons, hp, Option.isSome_none, Bool.not_false, if_true]
      exact ih _ _ _
    | some k =>
      have hp : pairRow it ((s, x), c, y) = some (x ++ lit " " ++ y, k % 2 ^ 64) := by simp [pairRow, hr]
      simp only [List.filterMap_cons, hp, Option.isSome_some, Bool.not_true, Bool.false_eq_true, if_false]
      have hl1 : (x ++ lit " " ++ y).length = y.length + x.length + 1 := by
        have : (lit " ").length = 1 := by decide +kernel
        simp only [List.length_append, this]; omega
      have ih' := ih true (iterGetCount (some it) s c found (some cnt)).count (if y.length + x.length + 1 > w then y.length + x.length + 1 else w)
      refine ⟨Nat.le_trans ?_ ih'.1, fun r hr' => ?_⟩
      · split <;> omega
      · rcases List.mem_cons.1 hr' with rfl | hr'
        · refine Nat.le_trans ?_ ih'.1
          rw [hl1]
          split <;> omega
        · exact ih'.2 r hr'

theorem detailLines_columns (it : IterStats) (w : Nat) : ∀ (l : List ((Nat × Bytes) × Nat × Bytes)) (found : Bool) (cnt : Nat),
    (∀ p ∈ l, p.1.1 < 10 ∧ p.2.1 < 4 ∧ (p.1.2 ++ 32 :: p.2.2).length ≤ 127) →
    Columns w ((l.filterMap (pairRow it)).map fun r => (r.1, fun v => Numeral v r.2)) (detailLines it w l found cnt)
  | [], _, _, _ => Columns.nil w
  | ((s, x), c, y) :: l, found, cnt, hl => by
    obtain ⟨h1, h2, h4⟩ := hl ((s, x), c, y) (by simp)
    obtain ⟨h3, h5⟩ := getCount_defined it h1 h2 found cnt
    have ih := fun f n => detailLines_columns it w l f n fun p hp => hl p (by simp [hp])
    rw [detailLines, h3]
    cases hr : reading it s c with
    | none =>
      have hp : pairRow it ((s, x), c, y) = none := by simp [pairRow, hr]
      simp only [List.filterMap_cons, hp, Option.isSome_none, Bool.not_false, if_true]
      exact ih _ _
    | some k =>
      have hp : pairRow it ((s, x), c, y) = some (x ++ lit " " ++ y, k % 2 ^ 64) := by simp [pairRow, hr]
      simp only [List.filterMap_cons, hp, Option.isSome_some, Bool.not_true, Bool.false_eq_true, if_false, List.map_cons]
      refine Columns.cons ?_ (ih _ _)
      rw [h5 k hr]
      have he : snprintf128 (x ++ 32 :: y) = x ++ lit " " ++ y := by
        have h0 : lit " " = [32] := by decide +kernel
        unfold snprintf128
        rw [List.take_of_length_le h4, h0]; simp
      rw [he]
      exact countLine_line w _ _

/-! ## The time -/

theorem timespecSub_ns {a b : Timespec} (ha : Normal a) (hb : Normal b) :
    Normal (timespecSub a b) ∧ ns (timespecSub a b) = ns b - ns a := by
  obtain ⟨a1, a2⟩ := ha
  obtain ⟨b1, b2⟩ := hb
  unfold timespecSub
  simp only
  split
  · exact ⟨⟨by simp only; omega, by simp only; omega⟩, by simp only [ns]; omega⟩
  · exact ⟨⟨by simp only; omega, by simp only; omega⟩, by simp only [ns]; omega⟩

theorem zeroPadded9_eq {n : Nat} (h : n < 1000000000) : zeroPadded9 n = digitsK 9 n := by
  have hc := countDigits_le (n := n) (k := 9) (by omega) (by simpa using h)
  unfold zeroPadded9
  rw [decimal_eq, digitsK_length, ← digitsK_pad]
  congr 1; omega

theorem elapsed_text {t : Timespec} (ht : Normal t) (h0 : 0 ≤ t.sec) :
    Elapsed (ns t).toNat (signed t.sec ++ [46] ++ zeroPadded9 t.nsec.toNat ++ lit "s") := by
  obtain ⟨h1, h2⟩ := ht
  have e1 : (ns t).toNat / 1000000000 = t.sec.natAbs := by unfold ns; omega
  have e2 : (ns t).toNat % 1000000000 = t.nsec.toNat := by unfold ns; omega
  have h3 : t.nsec.toNat < 1000000000 := by omega
  refine ⟨decimal t.sec.natAbs, digitsK 9 t.nsec.toNat, ?_, ?_, digitsK_length _ _, digitsK_digit _ _, ?_⟩
  · rw [zeroPadded9_eq h3]
    unfold signed
    rw [if_neg (by omega)]
    simp
  · rw [e1]; exact decimal_numeral _
  · rw [digitsK_value, e2]; exact Nat.mod_eq_of_lt h3

theorem detailWidth_hit (it : IterStats) : ∀ (l : List ((Nat × Bytes) × Nat × Bytes)) (found : Bool) (cnt w : Nat),
    (∀ p ∈ l, p.1.1 < 10 ∧ p.2.1 < 4) →
    (detailWidth it l found cnt w).1 = w ∨
    ∃ r ∈ l.filterMap (pairRow it), r.1.length = (detailWidth it l found cnt w).1
  | [], _, _, w, _ => .inl rfl
  | ((s, x), c, y) :: l, found, cnt, w, hl => by
    obtain ⟨h1, h2⟩ := hl ((s, x), c, y) (by simp)
    obtain ⟨h3, -⟩ := getCount_defined it h1 h2 found cnt
    have ih := fun f n w => detailWidth_hit it l f n w fun p hp => hl p (by simp [hp])
    rw [detailWidth]
    simp only
    rw [h3]
    cases hr : reading it s c with
    | none =>
      have hp : pairRow it ((s, x), c, y) = none := by simp [pairRow, hr]
      simp only [List.filterMap_cons, hp, Option.isSome_none, Bool.not_false, if_true]
      exact ih _ _ _
    | some k =>
      have hp : pairRow it ((s, x), c, y) = some (x ++ lit " " ++ y, k % 2 ^ 64) := by simp [pairRow, hr]
      simp only [List.filterMap_cons, hp, Option.isSome_some, Bool.not_true, Bool.false_eq_true, if_false]
      have hl1 : (x ++ lit " " ++ y).length = y.length + x.length + 1 := by
        have : (lit " ").length = 1 := by decide +kernel
        simp only [List.length_append, this]; omega
      rcases ih true (iterGetCount (some it) s c found (some cnt)).count
        (if y.length + x.length + 1 > w then y.length + x.length + 1 else w) with h | ⟨r, hr', h⟩
      · rw [h]
        split
        · exact .inr ⟨_, List.mem_cons_self, hl1⟩
        · exact .inl rfl
      · exact .inr ⟨r, List.mem_cons_of_mem _ hr', h⟩

theorem statsText_statistics {F : CliFlags} (hF : F.stats > 0) (it : IterStats) (found0 : Bool) (cnt0 : Nat) {start now : Timespec}
    (h1 : Normal start) (h2 : Normal now) (h3 : ns start ≤ ns now) (count : Nat) :
    Statistics (statsRows F.stats it) count (ns now - ns start).toNat (statsText F it found0 cnt0 start now count) := by
  obtain ⟨n1, n2⟩ := timespecSub_ns h1 h2
  have n3 : 0 ≤ (timespecSub start now).sec := by
    obtain ⟨a, b⟩ := n1
    unfold ns at n2 h3
    omega
  have he := elapsed_text n1 n3
  rw [n2] at he
  have tail : ∀ w, Columns w [(lit "entries", fun v => Numeral v count), (lit "elapsed", Elapsed (ns now - ns start).toNat)]
      (countLine w (lit "entries") count ++ (padRight w (lit "elapsed") ++ lit " : " ++ signed (timespecSub start now).sec ++ [46] ++
        zeroPadded9 (timespecSub start now).nsec.toNat ++ lit "s" ++ [10])) := by
    intro w
    refine Columns.cons (countLine_line w _ _) ⟨[_], (List.append_nil _).symm, ⟨_, he, ?_⟩, trivial⟩
    simp only [padRight, List.append_assoc]
  unfold statsText
  rw [if_pos hF]
  by_cases hs : F.stats > 1
  · simp only [if_pos hs, statsRows]
    have hl : ∀ p ∈ statPairs, p.1.1 < 10 ∧ p.2.1 < 4 := fun p hp => ⟨(pairs_ok p hp).1, (pairs_ok p hp).2.1⟩
    have hge := (detailWidth_ge it statPairs found0 cnt0 0 hl).2
    have hhit := detailWidth_hit it statPairs found0 cnt0 0 hl
    rw [← detailRows_pairs] at hge hhit
    have h7 : 7 ≤ (detailWidth it statPairs found0 cnt0 0).1 := by
      have hm : (lit "fileset" ++ lit " " ++ lit "merged", it.filesetMerged % 2 ^ 64) ∈ detailRows (reading it) := by
        rw [detailRows_pairs]
        refine List.mem_filterMap.2 ⟨((0, lit "fileset"), 1, lit "merged"), by decide +kernel, rfl⟩
      have hlen := hge _ hm
      have : (lit "fileset" ++ lit " " ++ lit "merged").length = 14 := by decide +kernel
      simp only [this] at hlen
      omega
    refine ⟨(detailWidth it statPairs found0 cnt0 0).1, detailLines it (detailWidth it statPairs found0 cnt0 0).1 statPairs
      (detailWidth it statPairs found0 cnt0 0).2.1 (detailWidth it statPairs found0 cnt0 0).2.2, _, ?_, h7, hge, ?_, ?_, tail _⟩
    rotate_left
    · rcases hhit with h | h
      · omega
      · exact h
    · rw [detailRows_pairs]
      exact detailLines_columns it _ statPairs _ _ pairs_ok
    · simp only [statsDetail, List.append_assoc, List.cons_append, List.nil_append]
  · simp only [if_neg hs, statsRows]
    have hw : longestName categoryLoop 0 = 8 := by decide +kernel
    refine ⟨8, summaryLines it cnt0 8 categoryNames found0, _, ?_, by omega, ?_, ?_, ?_, tail _⟩
    rotate_left
    · have : ∀ c ∈ categoryNames, c.2.length ≤ 8 := by decide +kernel
      intro r hr
      obtain ⟨c, hc, rfl⟩ := List.mem_map.1 hr
      exact this c hc
    · have h8 : (lit "filtered").length = 8 := by decide +kernel
      exact ⟨_, List.mem_map.2 ⟨(0, lit "filtered"), by decide +kernel, rfl⟩, h8⟩
    · have := summaryLines_columns it cnt0 8 categoryLoop found0 categories_lt
      rw [categoryLoop_names] at this
      exact this
    · simp only [statsSummary, hw, List.append_assoc, List.cons_append, List.nil_append]
      rw [categoryLoop_names]

/-! ## When statistics are written -/

/-- `b` is a block of a run that started in `d`. -/
structure IsInterim (F : CliFlags) (v : Printer) (T : CliTimers) (q : Query) (B : Built) (d : DumpSt B) (n : Nat) (b : Interim) : Prop where
  call : b.call < n
  before : ∃ d', dumpLoop F v T q B b.call d = .running d' ∧ b.count = d'.count ∧ Kept d'.world b.world
  after : AfterBlock b.late (T.interval.sec ≠ 0) (dumpLoop F v T q B (b.call + 1) d)

theorem IsInterim.shift {F : CliFlags} {v : Printer} {T : CliTimers} {q : Query} {B : Built} {d d1 : DumpSt B} {n : Nat} {b : Interim}
    (hd : ∀ k, dumpLoop F v T q B (k + 1) d = dumpLoop F v T q B k d1) (h : IsInterim F v T q B d1 n b) :
    IsInterim F v T q B d (n + 1) { b with call := b.call + 1 } := by
  obtain ⟨h1, h2, h3⟩ := h
  refine ⟨Nat.succ_lt_succ h1, ?_, ?_⟩
  · simpa only [hd] using h2
  · simpa only [hd] using h3

/-- Two blocks, one after the other: the first call timed out, and there is an interval. -/
def Follows (T : CliTimers) (b b' : Interim) : Prop :=
  b.call < b'.call ∧ b.late = true ∧ T.interval.sec ≠ 0 ∧ b.world.tick < b'.world.tick

/-- The time between two blocks. -/
def Spaced (T : CliTimers) (c : Nat → Timespec) (b b' : Interim) : Prop :=
  b'.late = true → ns (c b.world.tick) + ns T.interval ≤ ns (c b'.world.tick) ∨
    (T.deadline.sec ≠ 0 ∧ ns T.deadline ≤ ns (c b'.world.tick))

/-- The blocks of a run from `d` on. -/
structure Blocks (F : CliFlags) (v : Printer) (T : CliTimers) (q : Query) (B : Built) (n : Nat) (d : DumpSt B) (bs : List Interim) : Prop where
  moments : dumpMoments F v T q B n d = bs.map fun b => ⟨b.world, b.count⟩
  interim : ∀ b ∈ bs, IsInterim F v T q B d n b ∧ Kept d.world b.world
  last : LastBlock bs (dumpLoop F v T q B n d)
  follows : bs.Pairwise (Follows T)
  spaced : TimersOk T d.lim → Normal d.lim.deadline → Normal T.deadline → Normal T.interval →
    (∀ i, Normal (d.world.clock i)) → (∀ i j, i ≤ j → ns (d.world.clock i) ≤ ns (d.world.clock j)) →
    (∀ b ∈ bs, b.late = true → ns d.lim.deadline ≤ ns (d.world.clock b.world.tick)) ∧ bs.Pairwise (Spaced T d.world.clock)

theorem Blocks.shift {F : CliFlags} {v : Printer} {T : CliTimers} {q : Query} {B : Built} {n : Nat} {d d1 : DumpSt B} {bs : List Interim}
    (hm : dumpMoments F v T q B (n + 1) d = dumpMoments F v T q B n d1)
    (hd : ∀ k, dumpLoop F v T q B (k + 1) d = dumpLoop F v T q B k d1) (hk : Kept d.world d1.world) (hl : d1.lim = d.lim)
    (h : Blocks F v T q B n d1 bs) :
    Blocks F v T q B (n + 1) d (bs.map fun b => { b with call := b.call + 1 }) where
  moments := by rw [hm, h.moments, List.map_map]; rfl
  interim := by
    intro b hb
    obtain ⟨b, hb', rfl⟩ := List.mem_map.1 hb
    exact ⟨(h.interim b hb').1.shift hd, hk.trans (h.interim b hb').2⟩
  last := by
    rw [hd]
    have := h.last
    revert this
    cases dumpLoop F v T q B n d1 with
    | ended r d' => rintro ⟨b, h1, h2⟩; exact ⟨{ b with call := b.call + 1 }, by rw [List.getLast?_map, h1]; rfl, h2⟩
    | running d' => exact fun _ => trivial
    | fault f => exact fun _ => trivial
  follows := by
    rw [List.pairwise_map]
    exact h.follows.imp fun ⟨h1, h2⟩ => ⟨Nat.succ_lt_succ h1, h2⟩
  spaced := by
    intro h1 h2 h3 h4 h5 h6
    obtain ⟨g1, g2⟩ := h.spaced (hl ▸ h1) (hl ▸ h2) h3 h4 (by rw [hk.1]; exact h5) (by rw [hk.1]; exact h6)
    rw [hk.1] at g1 g2
    rw [hl] at g1
    refine ⟨fun b hb => ?_, ?_⟩
    · obtain ⟨b, hb', rfl⟩ := List.mem_map.1 hb
      exact g1 b hb'
    · rw [List.pairwise_map]; exact g2

theorem Blocks.empty {F : CliFlags} {v : Printer} {T : CliTimers} {q : Query} {B : Built} {n : Nat} {d : DumpSt B}
    (hm : dumpMoments F v T q B n d = []) (hd : ∀ r d', dumpLoop F v T q B n d ≠ .ended r d') : Blocks F v T q B n d [] where
  moments := hm
  interim := by simp
  last := by
    revert hd
    cases dumpLoop F v T q B n d with
    | ended r d' => exact fun h => (h r d' rfl).elim
    | running d' => exact fun _ => trivial
    | fault f => exact fun _ => trivial
  follows := .nil
  spaced := fun _ _ _ _ _ _ => ⟨by simp, .nil⟩

theorem statsReading_kept (F : CliFlags) (w : World) : Kept w (statsReading F w) := ⟨statsReading_clock F w, statsReading_tick F w⟩

theorem statsReading_stats (F : CliFlags) (w : World) : (statsReading F w).stats = w.stats := by
  unfold statsReading; split <;> rfl

/-- What the deadline of the next interval is. -/
theorem nextDeadline_value {T : CliTimers} {t x : Timespec} (hT : Normal T.deadline) (hi : Normal T.interval) (ht : Normal t)
    (h : nextDeadline T t = some x) :
    Normal x ∧ (ns x = ns t + ns T.interval ∨ T.deadline.sec ≠ 0 ∧ ns x = ns T.deadline) := by
  unfold nextDeadline at h
  split at h
  · cases h
  · simp only [Option.some.injEq] at h
    obtain ⟨n1, n2⟩ := timespecAdd_normal hi ht
    split at h
    · next hc =>
      subst h
      simp only [Bool.and_eq_true, decide_eq_true_eq, ne_eq] at hc
      exact ⟨hT, .inr ⟨hc.1, rfl⟩⟩
    · subst h
      exact ⟨n1, .inl (by omega)⟩

/-- A block, and the rest of the run after it. -/
theorem Blocks.cons {F : CliFlags} {v : Printer} {T : CliTimers} {q : Query} {B : Built} {n : Nat} {d d1 : DumpSt B} {bs : List Interim}
    {w : World} (hS : Clocked B.source) (hI : Clocked B.index) {s : QSt B}
    (hq : queryNext { q with lim := d.lim } B d.iter d.world = (.timeout, s, w))
    (hm : dumpMoments F v T q B (n + 1) d = ⟨w, d.count⟩ :: dumpMoments F v T q B n d1)
    (hd : ∀ k, dumpLoop F v T q B (k + 1) d = dumpLoop F v T q B k d1) (h0 : T.interval.sec ≠ 0)
    (hw : d1.world = (gettime (statsReading F w)).2) {x : Timespec}
    (hx : nextDeadline T (gettime (statsReading F w)).1 = some x)
    (hl : d1.lim = (setDeadlineParam { q with lim := d.lim } (some x)).1.lim)
    (h : Blocks F v T q B n d1 bs) :
    Blocks F v T q B (n + 1) d (⟨0, true, w, d.count⟩ :: bs.map fun b => { b with call := b.call + 1 }) := by
  obtain ⟨hk0, hlap⟩ := clocked_queryNext { q with lim := d.lim } hS hI d.iter d.world
  rw [hq] at hk0 hlap
  simp only at hk0 hlap
  have hk1 : Kept w (statsReading F w) := statsReading_kept F w
  have hk2 : Kept (statsReading F w) d1.world := by rw [hw]; exact ⟨rfl, Nat.le_succ _⟩
  have hk : Kept d.world d1.world := hk0.trans (hk1.trans hk2)
  have htick : w.tick < d1.world.tick := by
    rw [hw]; exact Nat.lt_succ_of_le hk1.2
  refine ⟨?_, ?_, ?_, ?_, ?_⟩
  · rw [hm, h.moments, List.map_cons, List.map_map]; rfl
  · intro b hb
    rcases List.mem_cons.1 hb with rfl | hb
    · refine ⟨⟨Nat.succ_pos _, ⟨d, rfl, rfl, hk0⟩, ?_⟩, hk0⟩
      rw [hd]; exact ⟨rfl, h0⟩
    · obtain ⟨b, hb', rfl⟩ := List.mem_map.1 hb
      exact ⟨(h.interim b hb').1.shift hd, hk.trans (h.interim b hb').2⟩
  · rw [hd]
    have := h.last
    revert this
    cases dumpLoop F v T q B n d1 with
    | ended r d' =>
      rintro ⟨b, h1, h2⟩
      refine ⟨{ b with call := b.call + 1 }, ?_, h2⟩
      rw [List.getLast?_cons, List.getLast?_map, h1]; rfl
    | running d' => exact fun _ => trivial
    | fault f => exact fun _ => trivial
  · refine List.Pairwise.cons ?_ ?_
    · intro b hb
      obtain ⟨b, hb', rfl⟩ := List.mem_map.1 hb
      exact ⟨Nat.succ_pos _, rfl, h0, Nat.lt_of_lt_of_le htick (h.interim b hb').2.2⟩
    · rw [List.pairwise_map]
      exact h.follows.imp fun ⟨h1, h2⟩ => ⟨Nat.succ_lt_succ h1, h2⟩
  · intro hT h2 h3 h4 h5 h6
    have hck : (statsReading F w).clock = d.world.clock := hk1.1.trans hk0.1
    have hnow : (gettime (statsReading F w)).1 = d.world.clock (statsReading F w).tick := by rw [← hck]; rfl
    rw [hnow] at hx
    obtain ⟨e1, e2⟩ := nextDeadline_value h3 h4 (h5 _) hx
    have hl2 : d1.lim.deadline = x ∧ d1.lim.doDeadline = true ∧ d1.lim.doTimeout = d.lim.doTimeout := by
      rw [hl]; exact ⟨rfl, rfl, rfl⟩
    obtain ⟨g1, g2⟩ := h.spaced ⟨hl2.2.2.trans hT.noTimeout, hl2.2.1, fun h => (h0 h).elim⟩ (by rw [hl2.1]; exact e1) h3 h4
      (by rw [hk.1]; exact h5) (by rw [hk.1]; exact h6)
    rw [hk.1] at g1 g2
    rw [hl2.1] at g1
    have harm : armTimer d.lim d.world = { d.world with deadline := d.lim.deadline, armed := true } := hT.arm d.world
    obtain ⟨i, i1, i2, i3⟩ := hlap.late trivial
    rw [harm] at i1 i3
    have hlate : ns d.lim.deadline ≤ ns (d.world.clock w.tick) :=
      Int.le_trans ((timespecGe_iff (h5 _) h2).1 i3) (h6 _ _ (Nat.le_of_lt i2))
    refine ⟨?_, List.Pairwise.cons ?_ ?_⟩
    · intro b hb hb2
      rcases List.mem_cons.1 hb with rfl | hb
      · exact hlate
      · obtain ⟨b, hb', rfl⟩ := List.mem_map.1 hb
        exact Int.le_trans hlate (h6 _ _ (Nat.le_trans (Nat.le_of_lt htick) (h.interim b hb').2.2))
    · intro b hb
      obtain ⟨b, hb', rfl⟩ := List.mem_map.1 hb
      intro hb2
      have := g1 b hb' hb2
      have hmono := h6 w.tick (statsReading F w).tick hk1.2
      rcases e2 with e2 | ⟨e2, e3⟩
      · refine .inl ?_
        show ns (d.world.clock w.tick) + _ ≤ ns (d.world.clock b.world.tick)
        omega
      · refine .inr ⟨e2, ?_⟩
        show _ ≤ ns (d.world.clock b.world.tick)
        omega
    · rw [List.pairwise_map]; exact g2

/-- The last block. -/
theorem Blocks.one {F : CliFlags} {v : Printer} {T : CliTimers} {q : Query} {B : Built} {n : Nat} {d d' : DumpSt B}
    {w : World} (hS : Clocked B.source) (hI : Clocked B.index) {s : QSt B} (late : Bool)
    (hq : queryNext { q with lim := d.lim } B d.iter d.world = (if late then .timeout else .failure, s, w))
    (hm : dumpMoments F v T q B (n + 1) d = [⟨w, d.count⟩])
    (hd : ∀ k, dumpLoop F v T q B (k + 1) d = .ended (if late then .timeout else .failure) d')
    (h1 : d'.count = d.count) (h2 : d'.world.stats = w.stats) (h3 : w.tick ≤ d'.world.tick) :
    Blocks F v T q B (n + 1) d [⟨0, late, w, d.count⟩] := by
  obtain ⟨hk0, hlap⟩ := clocked_queryNext { q with lim := d.lim } hS hI d.iter d.world
  rw [hq] at hk0 hlap
  simp only at hk0 hlap
  refine ⟨hm, ?_, ?_, .cons (by simp) .nil, ?_⟩
  · intro b hb
    rw [List.mem_singleton.1 hb]
    refine ⟨⟨Nat.succ_pos _, ⟨d, rfl, rfl, hk0⟩, ?_⟩, hk0⟩
    rw [hd]; exact rfl
  · rw [hd]; exact ⟨_, rfl, h1.symm, h2.symm, h3⟩
  · intro hT g2 g3 g4 g5 g6
    refine ⟨?_, .cons (by simp) .nil⟩
    intro b hb hb2
    rw [List.mem_singleton.1 hb] at hb2 ⊢
    simp only at hb2 ⊢
    have harm : armTimer d.lim d.world = { d.world with deadline := d.lim.deadline, armed := true } := hT.arm d.world
    obtain ⟨i, i1, i2, i3⟩ := hlap.late (by rw [hb2]; rfl)
    rw [harm] at i1 i3
    exact Int.le_trans ((timespecGe_iff (g5 _) g2).1 i3) (g6 _ _ (Nat.le_of_lt i2))

theorem moments_blocks (F : CliFlags) (v : Printer) (T : CliTimers) (q : Query) {B : Built} (hS : Clocked B.source)
    (hI : Clocked B.index) (n : Nat) : ∀ d : DumpSt B, ∃ bs, Blocks F v T q B n d bs := by
  induction n with
  | zero => exact fun d => ⟨[], Blocks.empty rfl fun r d' h => by rw [dumpLoop] at h; cases h⟩
  | succ n ih =>
    intro d
    have hk := (clocked_queryNext { q with lim := d.lim } hS hI d.iter d.world).1
    generalize hq : queryNext { q with lim := d.lim } B d.iter d.world = z at hk
    obtain ⟨r, s, w⟩ := z
    have hm := dumpMoments.eq_2 F v T q B d n
    have hd := fun k => dumpLoop.eq_2 F v T q B d k
    rw [hq] at hm
    simp only [hq] at hd
    cases r with
    | fault f => exact ⟨[], Blocks.empty hm fun r d' h => by rw [hd n] at h; cases h⟩
    | entry e =>
      simp only at hm hd
      cases hp : printEntry F v e with
      | ok t =>
        simp only [hp] at hm hd
        obtain ⟨bs, h⟩ := ih _
        exact ⟨_, Blocks.shift hm hd hk rfl h⟩
      | fail =>
        simp only [hp] at hm hd
        exact ⟨[], Blocks.empty hm fun r d' h => by rw [hd n] at h; cases h⟩
      | fault f =>
        simp only [hp] at hm hd
        exact ⟨[], Blocks.empty hm fun r d' h => by rw [hd n] at h; cases h⟩
    | failure =>
      exact ⟨_, Blocks.one hS hI false hq hm hd rfl (statsReading_stats F w) (statsReading_tick F w)⟩
    | timeout =>
      simp only at hm hd
      by_cases h0 : T.interval.sec = 0
      · simp only [h0, if_true] at hm hd
        exact ⟨_, Blocks.one hS hI true hq hm hd rfl (statsReading_stats F w) (statsReading_tick F w)⟩
      · simp only [h0, if_false] at hm hd
        cases hn : nextDeadline T (gettime (statsReading F w)).1 with
        | none =>
          simp only [hn] at hm hd
          exact ⟨_, Blocks.one hS hI true hq hm hd rfl (statsReading_stats F w) (Nat.le_succ_of_le (statsReading_tick F w))⟩
        | some x =>
          simp only [hn] at hm hd
          obtain ⟨bs, h⟩ := ih _
          exact ⟨_, Blocks.cons hS hI hq hm hd h0 rfl hn rfl h⟩

end Verif
