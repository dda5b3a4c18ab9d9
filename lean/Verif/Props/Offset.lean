import Verif.Lemmas.Offset
import Verif.Props.Timeouts

/-!
# The offset (C32)

As in `Props.Timeouts`, `assemble q ⟨curM T sf, curM Ti sfi, rm, fill⟩ p` is the iterator of any query,
with or without removal and fill tables.  `World.offset` is the offset of the query object, which
`filter_offset` counts down.
-/

namespace Verif.Props
open Spec

/-- The query object with another offset and other time limits. -/
abbrev withN (q : Query) (n : Nat) (l : Limits) : Query := { q with offset := n, lim := l }

theorem queryRun_withN (q : Query) (n : Nat) (l : Limits) (B : Built) (ls : List Limits) (s : QSt B) (w : World) :
    queryRun (withN q n l) B ls s w = queryRun q B ls s w :=
  queryRun_congr (q := withN q n l) (q' := q) (fun _ _ => rfl) B ls s w

/-- C32, offset.  If the query without offset delivers `E`, the query with offset `n` delivers `E`
without its first `n` entries, with or without time limits.  All stored rows have to decode, and still
have to after a merge with a row of the fill table (`C32_undecodable_counterexample` has one that does
not). -/
theorem C32_offset {q : Query} {p : Plan} (hr : q.rrtype < 2 ^ 32) (hp : initKind q = .ok p)
    {T Ti : Table} (hT : Sorted T) (hTi : Sorted Ti) (sf sfi : View → Bytes → Bool)
    (rm : Option (List Src)) (fill : Option Src)
    (hdec : ∀ kv ∈ T, entryDecode kv.1 kv.2 ≠ .fail)
    (hfill : ∀ F, fill = some F → ∀ k a b v, entryDecode k a ≠ .fail → (k, b) ∈ F.rows →
      mergeFunc k a b = .ok v → entryDecode k v ≠ .fail)
    {E : List Entry} {v : World} (hv : v.offset = 0)
    (hE : let B := assemble (withN q 0 {}) ⟨curM T sf, curM Ti sfi, rm, fill⟩ p
      ∀ k, Returns false E (queryRun (withN q 0 {}) B (List.replicate k {}) B.start v))
    (n : Nat) (l : Limits) {ls : List Limits} (hls : l.active = true → ∀ l ∈ ls, l.active = true)
    {w : World} (hw : w.offset = n) :
    let B := assemble (withN q n l) ⟨curM T sf, curM Ti sfi, rm, fill⟩ p
    initKind (withN q n l) = .ok p ∧
      Returns l.active (E.drop n) (queryRun (withN q n l) B ls B.start w) := by
  obtain ⟨Z, J, K, QX, hJ, hK, hT', hU', hI, hP, hR, hI', hR', hput⟩ :=
    assembledO (q := q) (plan_ok hr hp) hT hTi sf sfi rm fill hdec hfill
  refine ⟨hp, ?_⟩
  simp only [queryRun_withN] at hE ⊢
  have hd : Del q (Z.bU p.view p.indirect) (Z.bU p.view p.indirect).start v E := by
    intro k
    have h0 := hE k
    rw [(hU' {} rfl).1] at h0
    exact h0
  have hU0 : ∀ ls (w : World), w.offset = 0 →
      Returns false E (queryRun q (Z.bU p.view p.indirect) ls (Z.bU p.view p.indirect).start w) := by
    intro ls w hw
    exact Returns.congr (Z.run_lims q ls hI (hw.trans hv.symm)).symm (hd ls.length)
  have hUn : ∀ ls (w : World),
      Returns false (E.drop w.offset)
        (queryRun q (Z.skip.bU p.view p.indirect) ls (Z.skip.bU p.view p.indirect).start w) := by
    intro ls w
    rw [← hput]
    exact Z.skip_run hJ hK ls hI hP hd
  subst hw
  cases hl : l.active with
  | false =>
    cases hn : w.offset with
    | zero => rw [(hU' l hl).1]; exact hU0 ls w hn
    | succ n => rw [(hU' l hl).2 n, ← hn]; exact hUn ls w
  | true =>
    cases hn : w.offset with
    | zero =>
      rw [(hT' l hl).1]
      obtain ⟨-, k, hk⟩ := Z.run_twin q ls (hls hl) (w := w) (v := w) hR hI rfl
      exact Returns.timed hk (hU0 _ w hn)
    | succ n =>
      rw [(hT' l hl).2 n, ← hn]
      obtain ⟨-, k, hk⟩ := Z.skip.run_twin q ls (hls hl) (w := w) (v := w) hR' hI' rfl
      exact Returns.timed hk (hUn _ w)

/-- `a.com` with two RRsets and `a.org` with one. -/
def exSound : Table :=
  [([0, 3, 99, 111, 109, 1, 97, 0, 1, 3, 99, 111, 109, 0, 4, 1, 2, 3, 4], [5, 6, 7]),
   ([0, 3, 99, 111, 109, 1, 97, 0, 2, 0], [5, 6, 7]),
   ([0, 3, 111, 114, 103, 1, 97, 0, 1, 0], [8, 9, 1]),
   ([1, 1, 97, 3, 99, 111, 109, 0], []),
   ([1, 1, 97, 3, 111, 114, 103, 0], [])]

/-- The results of a query for `a.*` over the rows `T`: the owner name and type of every entry, `none` for
anything else. -/
def exResults (T : Table) (offset calls : Nat) (l : Limits) : List (Option (Bytes × Nat)) :=
  let q : Query := { qType := .rrset, name := [1, 97, 1, 42, 0], offset := offset, lim := l }
  let B := assemble q (plainSources (curM T fun _ _ => false)) exPlan
  (queryRun q B (List.replicate calls l) B.start (exWorld offset)).map fun c =>
    match c.res with | .entry e => some (e.name, e.rrtype) | _ => none

/-- The hypotheses of `C32_offset` are met by `a.*`; an offset of two leaves the third entry, also with
a timeout before it. -/
example : (∀ kv ∈ exSound, entryDecode kv.1 kv.2 ≠ .fail) ∧ Sorted exSound ∧
    exResults exSound 0 5 {} = [some ([1, 97, 3, 99, 111, 109, 0], 1), some ([1, 97, 3, 99, 111, 109, 0], 2),
      some ([1, 97, 3, 111, 114, 103, 0], 1), none, none] ∧
    exResults exSound 2 3 {} = [some ([1, 97, 3, 111, 114, 103, 0], 1), none, none] ∧
    exResults exSound 2 4 { doTimeout := true, timeout := ⟨3, 0⟩ } =
      [none, none, some ([1, 97, 3, 111, 114, 103, 0], 1), none] := by
  decide +kernel

/-- The first two results of a query for `a.*` with offset two; then those of an iterator opened on the
same query object afterwards, whose offset is what the first iterator has left. -/
def exTwice : List (Option (Bytes × Nat)) × List (Option (Bytes × Nat)) :=
  let q : Query := { qType := .rrset, name := [1, 97, 1, 42, 0], offset := 2 }
  let B := assemble q (plainSources (curM exSound fun _ _ => false)) exPlan
  let first := queryRun q B [{}, {}] B.start (exWorld 2)
  let res := fun c : Call => match c.res with | .entry e => some (e.name, e.rrtype) | _ => none
  match first.getLast? with
  | none => ([], [])
  | some c =>
    let q' := { q with offset := c.after.offset }
    let B' := assemble q' (plainSources (curM exSound fun _ _ => false)) exPlan
    (first.map res, (queryRun q' B' [{}, {}] B'.start c.after).map res)

/-- The second half of C32 does not hold: once an iterator has been used, the offset of the query object
has been counted down, and an iterator opened on the same object afterwards skips fewer rows, here
none. -/
theorem C32_reuse_counterexample :
    exTwice = ([some ([1, 97, 3, 111, 114, 103, 0], 1), none],
      [some ([1, 97, 3, 99, 111, 109, 0], 1), some ([1, 97, 3, 99, 111, 109, 0], 2)]) := by
  decide +kernel

/-- Rows that do not decode count towards the offset though they are never returned: of the two entries
returned without offset, an offset of two skips only the first. -/
theorem C32_undecodable_counterexample :
    exResults exRows 0 3 {} = [some ([1, 97, 3, 99, 111, 109, 0], 1), some ([1, 97, 3, 111, 114, 103, 0], 1), none] ∧
    exResults exRows 2 2 {} = [some ([1, 97, 3, 111, 114, 103, 0], 1), none] := by
  decide +kernel

end Verif.Props
