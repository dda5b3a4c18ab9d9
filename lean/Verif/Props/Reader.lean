import Verif.Model.Reader
import Verif.Lemmas.QueryRun
import Verif.Lemmas.QueryCore
import Verif.Lemmas.Entry
import Verif.Props.Timeouts

/-!
# C45: iterating over a table
-/

namespace Verif.Props
open Verif Verif.Spec

/-- The results of `n` calls of an iterator. -/
def readerRun (R : Src) : Nat → View × Table → World → List QRes
  | 0, _, _ => []
  | n + 1, s, w => (readerNext R s w).1 :: readerRun R n (readerNext R s w).2.1 (readerNext R s w).2.2

/-- The row is of the kind asked for (`none`: any). -/
def ofKind (kind : Option UInt8) (kv : KV) : Bool := kind.all fun t => kv.1.head? == some t

/-- The decodable entries of a kind, in table order. -/
def decodable (T : Table) (kind : Option UInt8) : List Entry :=
  (T.filter (ofKind kind)).filterMap fun kv =>
    match entryDecode kv.1 kv.2 with
    | .ok e => some e
    | _ => none

theorem rowsIn_kind (T : Table) (kind : Option UInt8) :
    rowsIn T (kindView kind) = T.filter (ofKind kind) := by
  unfold rowsIn
  congr 1
  funext kv
  cases kind with
  | none => rfl
  | some t =>
    rcases kv with ⟨_ | ⟨a, k⟩, v⟩
    · simp [kindView, inView, ofKind]
    · show ([t].isPrefixOf (a :: k)) = (some a == some t)
      by_cases h : a = t
      · subst h; simp
      · have e1 : (t == a) = false := by simpa using Ne.symm h
        have e2 : (some a == some t) = false := by simpa using h
        rw [e2]
        simp [List.isPrefixOf, e1]

private theorem readerLoop_spec {R : Src} {Q : View × Table → Bytes → Table → Prop} (hS : Sim R.mach false Q) :
    ∀ n s lo L w, Q s lo L → SafeRows L → L.length < n →
      ((readerLoop R n s w).1 = .failure ∧ L.filterMap decodeRow = [] ∧ ∃ lo', Q (readerLoop R n s w).2.1 lo' [])
      ∨ ∃ e L' lo', (readerLoop R n s w).1 = .entry e ∧ L.filterMap decodeRow = e :: L'.filterMap decodeRow ∧
          L' ⊆ L ∧ Q (readerLoop R n s w).2.1 lo' L'
  | 0, s, lo, L, w, _, _, hn => by omega
  | n + 1, s, lo, L, w, hQ, hs, hn => by
    have h := hS.next w hQ (fun h => by cases h)
    unfold readerLoop
    rcases hm : R.mach.next s w with ⟨r, s1, w1⟩
    rw [hm] at h
    obtain ⟨-, h⟩ := h
    rcases h with ⟨-, h, -⟩ | ⟨-, -, ⟨rfl, rfl, lo', -, hA⟩ | ⟨kv, L', rfl, rfl, -, hA⟩⟩
    · cases h
    · exact .inl ⟨rfl, rfl, lo', hA⟩
    · simp only
      have hsafe := hs kv List.mem_cons_self
      cases hd : entryDecode kv.1 kv.2 with
      | ok e =>
        exact .inr ⟨e, L', kv.1, rfl, by simp [decodeRow, hd], fun x hx => List.mem_cons_of_mem _ hx, hA⟩
      | fail =>
        have := readerLoop_spec hS n s1 kv.1 L' w1 hA (fun x hx => hs x (List.mem_cons_of_mem _ hx))
          (by simp at hn; omega)
        have e1 : (kv :: L').filterMap decodeRow = L'.filterMap decodeRow := by simp [decodeRow, hd]
        simp only [e1]
        rcases this with h | ⟨e, L2, lo', h1, h2, h3, h4⟩
        · exact .inl h
        · exact .inr ⟨e, L2, lo', h1, h2, fun x hx => List.mem_cons_of_mem _ (h3 hx), h4⟩
      | fault f => rw [hd] at hsafe; exact hsafe.elim

private theorem readerRun_spec {R : Src} {Q : View × Table → Bytes → Table → Prop} (hS : Sim R.mach false Q) :
    ∀ n s lo L w, Q s lo L → SafeRows L →
      readerRun R n s w = ((L.filterMap decodeRow).map QRes.entry ++ List.replicate n QRes.failure).take n
  | 0, s, lo, L, w, _, _ => by simp [readerRun]
  | n + 1, s, lo, L, w, hQ, hs => by
    have h := readerLoop_spec hS (R.mach.size s + 1) s lo L w hQ hs (Nat.lt_succ_of_le (hS.size hQ))
    unfold readerRun readerNext
    rcases h with ⟨h1, h2, lo', h3⟩ | ⟨e, L', lo', h1, h2, h3, h4⟩
    · rw [show (readerLoop R (R.mach.size s + 1) s w).1 = .failure from h1,
        readerRun_spec hS n _ lo' [] _ h3 (fun x hx => by cases hx), h2]
      simp [List.replicate_succ]
    · rw [show (readerLoop R (R.mach.size s + 1) s w).1 = .entry e from h1,
        readerRun_spec hS n _ lo' L' _ h4 (fun x hx => hs x (h3 hx)), h2]
      simp only [List.map_cons, List.cons_append, List.take_succ_cons, List.cons.injEq, true_and]
      rw [List.take_append, List.take_append]
      congr 1
      rw [List.take_replicate, List.take_replicate]
      congr 1
      omega

/-- C45, partial: the iterators over all entries (`none`) or one kind (`some t`) of an opened table
deliver, over any number of calls, exactly the decodable entries of the kind, in table order, and then
failure for ever.  Undecodable rows may be anywhere; but if decoding a row of the kind does not end or
accesses memory outside the row (see C17), so does the iterator (`C45_row_counterexample`), and
readers of set files have no table to iterate over (`C45_setfile_counterexample`). -/
theorem C45_iter_partial (R : Src) (hT : Sorted R.rows) (kind : Option UInt8)
    (hd : ∀ kv ∈ R.rows, ofKind kind kv = true → (entryDecode kv.1 kv.2).safe) (n : Nat) (w : World) :
    ∃ s, readerOpen ⟨some R⟩ kind = .ok s ∧
      readerRun R n s w = ((decodable R.rows kind).map QRes.entry ++ List.replicate n QRes.failure).take n := by
  refine ⟨_, rfl, ?_⟩
  obtain ⟨Q, hS, h0⟩ := impl_cur hT R.seekFails (kindView kind)
  rw [rowsIn_kind] at h0
  have := readerRun_spec hS n _ _ _ w h0 (fun kv hk => hd kv (List.mem_filter.mp hk).1 (List.mem_filter.mp hk).2)
  exact this

/-- C45: what an iterator of one of the documented kinds delivers is of that kind. -/
theorem C45_kind (T : Table) (t : UInt8) (ht : t ∈ ([0, 1, 2, 3, 253, 254, 255] : List UInt8)) (e : Entry)
    (he : e ∈ decodable T (some t)) : e.getType = t.toNat := by
  unfold decodable at he
  obtain ⟨⟨key, val⟩, hk, hd⟩ := List.mem_filterMap.mp he
  have hkind := (List.mem_filter.mp hk).2
  simp only [ofKind, Option.all_some, beq_iff_eq] at hkind
  simp only at hd
  rcases key with _ | ⟨a, buf⟩
  · cases hkind
  · cases hkind
    cases hdec : entryDecode (t :: buf) val with
    | fail => rw [hdec] at hd; cases hd
    | fault f => rw [hdec] at hd; cases hd
    | ok e' =>
      rw [hdec] at hd
      cases hd
      have bind : ∀ {α β : Type} {x : Out α} {f : α → Out β} {b : β}, (x >>= f) = .ok b →
          ∃ a, x = .ok a ∧ f a = .ok b := by
        intro α β x f b h
        cases x with
        | ok a => exact ⟨a, rfl, h⟩
        | fail => cases h
        | fault e => cases h
      have trip : ∀ {x e : Entry} {v : Bytes}, decodeValTriplet x v = .ok e → e.eType = x.eType := by
        intro x e v h
        obtain ⟨⟨f, l, c⟩, -, h⟩ := bind h
        cases h; rfl
      have rrs : ∀ {x e : Entry} {b : Bytes}, decodeRrset x b = .ok e → e.eType = x.eType := by
        intro x e v h
        obtain ⟨a1, -, h⟩ := bind h
        obtain ⟨a2, -, h⟩ := bind h
        obtain ⟨a3, -, h⟩ := bind h
        obtain ⟨a4, -, h⟩ := bind h
        cases h; rfl
      have rda : ∀ {x e : Entry} {b : Bytes}, decodeRdata x b = .ok e → e.eType = x.eType := by
        intro x e v h
        unfold decodeRdata at h
        split at h
        · cases h
        · obtain ⟨a1, -, h⟩ := bind h
          obtain ⟨a2, -, h⟩ := bind h
          simp only at h
          split at h
          · cases h
          · obtain ⟨a3, -, h⟩ := bind h
            split at h
            · cases h
            · obtain ⟨a4, -, h⟩ := bind h
              cases h; rfl
      unfold Entry.getType
      simp only [List.mem_cons, List.not_mem_nil, or_false] at ht
      rcases ht with rfl | rfl | rfl | rfl | rfl | rfl | rfl
      · obtain ⟨x, h1, h2⟩ := bind (show (decodeRrset { eType := tRRSET } buf >>= fun e => decodeValTriplet e val) = _ from hdec)
        rw [trip h2, rrs h1]; rfl
      · cases (show decodeRrsetNameFwd { eType := tRRSET_NAME_FWD } buf val = _ from hdec); rfl
      · obtain ⟨x, h1, h2⟩ := bind (show (decodeRdata { eType := tRDATA } buf >>= fun e => decodeValTriplet e val) = _ from hdec)
        rw [trip h2, rda h1]; rfl
      · obtain ⟨x, -, h2⟩ := bind (show decodeRdataNameRev { eType := tRDATA_NAME_REV } buf val = _ from hdec)
        cases h2; rfl
      · cases (show decodeSourceInfo { eType := tSOURCE_INFO } buf = _ from hdec); rfl
      · obtain ⟨x, -, h2⟩ := bind (show decodeTimeRange { eType := tTIME_RANGE } val = _ from hdec)
        cases h2; rfl
      · have h2 : decodeVersion { eType := tVERSION } buf val = .ok e := hdec
        unfold decodeVersion at h2
        split at h2
        · split at h2
          · cases h2
          · obtain ⟨x, -, h2⟩ := bind h2
            simp only at h2
            split at h2
            · cases h2; rfl
            · cases h2
        · cases h2

/-- C45 for tables of legal records: the iterator delivers exactly the entries of all records of the
kind, in key order. -/
theorem C45_stored {Ts : List Rec} (hS : Stored Ts) (sf : View → Bytes → Bool) (kind : Option UInt8) (n : Nat)
    (w : World) :
    ∃ s, readerOpen ⟨some ⟨rowsOf Ts, sf⟩⟩ kind = .ok s ∧
      readerRun ⟨rowsOf Ts, sf⟩ n s w =
        (((Ts.filter fun x => kind.all fun t => x.key.head? == some t).map fun x => QRes.entry x.entry) ++
          List.replicate n QRes.failure).take n := by
  obtain ⟨s, h1, h2⟩ := C45_iter_partial ⟨rowsOf Ts, sf⟩ hS.sorted kind
    (fun kv hk _ => safeRows_rows hS.legal kv hk) n w
  refine ⟨s, h1, ?_⟩
  have e : decodable (rowsOf Ts) kind =
      (Ts.filter fun x => kind.all fun t => x.key.head? == some t).map Rec.entry := by
    have := filterMap_rows (Ts := Ts.filter fun x => kind.all fun t => x.key.head? == some t)
      (fun x hx => hS.legal x (List.mem_filter.mp hx).1)
    rw [← this]
    unfold decodable rowsOf
    rw [filter_rows]
    rfl
  rw [h2, e, List.map_map]
  rfl

/-- The table of `exRows`, whose second RRset cannot be decoded: every row is safe to decode, the RRset
iterator returns the first and the third, and the iterator over everything four entries. -/
example :
    let R : Src := ⟨exRows, fun _ _ => false⟩
    Sorted R.rows ∧ (∀ kv ∈ R.rows, (entryDecode kv.1 kv.2).safe) ∧
    entryDecode [0, 3, 99, 111, 109, 1, 97, 0, 1, 70] [5, 6, 7] = .fail ∧
    (decodable R.rows (some 0)).map (·.name) = [[1, 97, 3, 99, 111, 109, 0], [1, 97, 3, 111, 114, 103, 0]] ∧
    (decodable R.rows none).length = 4 := by
  refine ⟨by decide +kernel, ?_, by decide +kernel, by decide +kernel, by decide +kernel⟩
  intro kv hk
  have h : ∀ kv ∈ exRows, (match entryDecode kv.1 kv.2 with | .fault _ => false | _ => true) = true := by
    decide +kernel
  have := h kv hk
  cases hd : entryDecode kv.1 kv.2 with
  | ok e => trivial
  | fail => trivial
  | fault f => rw [hd] at this; cases this

private theorem readerLoop_fault {R : Src} {n : Nat} {s s' : View × Table} {w w' : World} {kv : KV} {f : Fault}
    (h : R.mach.next s w = (.item kv, s', w')) (hd : entryDecode kv.1 kv.2 = .fault f) :
    (readerLoop R (n + 1) s w).1 = .fault f := by
  unfold readerLoop
  rw [h]
  simp only [hd]

/-- C45 counterexample: the iterator over a table with the row `00 00` (an RRset key which ends after the
owner name) reads past the end of the key instead of skipping the row. -/
theorem C45_row_counterexample (w : World) :
    let R : Src := ⟨[([0, 0], [1, 1, 1]), ([0, 0, 1, 0], [1, 1, 1])], fun _ _ => false⟩
    Sorted R.rows ∧ ∃ s, readerOpen ⟨some R⟩ (some 0) = .ok s ∧
      (readerNext R s w).1 = .fault .oobRead ∧ (decodable R.rows (some 0)).length = 1 := by
  refine ⟨by decide +kernel, _, rfl, ?_, by decide +kernel⟩
  have h : entryDecode [0, 0] [1, 1, 1] = .fault .oobRead := by decide +kernel
  exact readerLoop_fault (kv := ([0, 0], [1, 1, 1])) rfl h

/-- C45 counterexample: the iterators of a reader of a set file dereference a null pointer. -/
theorem C45_setfile_counterexample (kind : Option UInt8) : readerOpen ⟨none⟩ kind = .fault .nullDeref := rfl

end Verif.Props
