import Verif.Lemmas.PtrHeap

/-!
# C68: the heap of pointers
-/

namespace Verif.Props

open Verif.Spec Verif.PtrHeap

variable {α : Type}

/-- One call on a heap: it does what `HeapCall` says, or it is `heap_get` on an empty heap, which aborts. -/
theorem heap_call (cmp : α → α → Int) (v : List α) (hv : v.length < 2 ^ 64) (t : Bool) (h : Orders cmp → t = true → Tidy cmp 0 v)
    (o : Op α) :
    (∃ r w t', call cmp v o = .ok (r, w) ∧ HeapCall cmp (v, t) o r (w, t') ∧ w.length ≤ v.length + 1 ∧
      (Orders cmp → t' = true → Tidy cmp 0 w)) ∨
    ((∃ i, o = .get i) ∧ v = [] ∧ call cmp v o = .fault .abort) := by
  have hl : ∀ {x : α}, v.head? = some x → Orders cmp → t = true → Least cmp v x := fun hx ho ht => (h ho ht).least ho hx
  cases o with
  | push x =>
    obtain ⟨w, hw, hp, ht⟩ := push_spec cmp v x
    exact .inl ⟨_, w, t, by rw [call, hw]; rfl, .push hp, by rw [hp.length_eq]; simp, fun ho h' => ht ho (h ho h')⟩
  | pop =>
    cases v with
    | nil => exact .inl ⟨_, [], t, rfl, .popNone, by simp, h⟩
    | cons x m =>
      obtain ⟨w, hw, hp, ht⟩ := pop_spec cmp x m
      exact .inl ⟨_, w, t, by rw [call, hw]; rfl, .pop rfl (hp.cons x) (hl rfl), by rw [hp.length_eq]; simp only [List.length_cons]; omega,
        fun ho h' => ht ho (h ho h')⟩
  | replace y =>
    cases v with
    | nil => exact .inl ⟨_, [], t, rfl, .replaceNone, by simp, h⟩
    | cons x m =>
      obtain ⟨w, hw, hp, ht⟩ := replace_spec cmp x m y
      exact .inl ⟨_, w, t, by rw [call, hw]; rfl, .replace rfl hp (hl rfl), by rw [hp.length_eq]; simp,
        fun ho h' => ht ho (h ho h')⟩
  | peek =>
    cases v with
    | nil => exact .inl ⟨_, [], t, rfl, .peekNone, by simp, h⟩
    | cons x m => exact .inl ⟨_, x :: m, t, rfl, .peek rfl (hl rfl), by simp, h⟩
  | get i =>
    cases v with
    | nil =>
      by_cases hi : i < 2 ^ 64
      · refine .inr ⟨⟨i, rfl⟩, rfl, ?_⟩
        rw [call, PtrHeap.get, if_neg (by simp; omega)]
        rfl
      · refine .inl ⟨.item none, [], t, ?_, HeapCall.get (l := []) (i := i), by simp, h⟩
        rw [call, PtrHeap.get, if_pos (by simp; omega)]
        rfl
    | cons x m =>
      refine .inl ⟨.item (x :: m)[i]?, x :: m, t, ?_, .get, by simp, h⟩
      have e : ((x :: m).length + 2 ^ 64 - 1) % 2 ^ 64 = m.length := by
        simp only [List.length_cons] at hv ⊢; omega
      rw [call, PtrHeap.get, e]
      by_cases hi : i > m.length
      · rw [if_pos hi, List.getElem?_eq_none (by simp only [List.length_cons]; omega)]; rfl
      · obtain ⟨y, hy⟩ := lookup (v := x :: m) (i := i) (by simp only [List.length_cons]; omega)
        rw [if_neg hi, value_ok hy, hy]; rfl
  | size => exact .inl ⟨_, v, t, rfl, .size, by omega, h⟩
  | reset => exact .inl ⟨_, [], true, rfl, .reset, by simp, fun _ _ p i _ _ a b ha => by simp at ha⟩
  | clip n =>
    refine .inl ⟨_, v.take n, t, ?_, .clip, by rw [List.length_take]; omega, fun ho h' => (h ho h').take n⟩
    rw [call]
    split
    · rfl
    · rw [List.take_of_length_le (by omega)]
  | add x => exact .inl ⟨_, v ++ [x], false, rfl, .add, by simp, fun _ h => by cases h⟩
  | heapify =>
    obtain ⟨w, hw, hp, ht⟩ := heapify_spec cmp v
    exact .inl ⟨_, w, true, by rw [call, hw]; rfl, .heapify hp, by rw [hp.length_eq]; omega, fun ho _ => ht ho⟩

theorem heap_calls (cmp : α → α → Int) : ∀ (os : List (Op α)) (v : List α) (t : Bool), v.length + os.length < 2 ^ 64 →
    (Orders cmp → t = true → Tidy cmp 0 v) →
    (∃ rs s, calls cmp v os = .ok rs ∧ HeapCalls cmp (v, t) os rs s) ∨
    (calls cmp v os = .fault .abort ∧ ∃ pre i post rs t', os = pre ++ .get i :: post ∧ HeapCalls cmp (v, t) pre rs ([], t'))
  | [], v, t, _, _ => .inl ⟨[], (v, t), rfl, .nil⟩
  | o :: os, v, t, hv, h => by
    simp only [List.length_cons] at hv
    rcases heap_call cmp v (by omega) t h o with ⟨r, w, t', hc, hs, hw, ht⟩ | ⟨⟨i, rfl⟩, rfl, hc⟩
    · rcases heap_calls cmp os w t' (by omega) ht with ⟨rs, s, hrs, hh⟩ | ⟨hf, pre, i, post, rs, t'', rfl, hh⟩
      · exact .inl ⟨r :: rs, s, by rw [calls, hc, Out.ok_bind, hrs]; rfl, .cons hs hh⟩
      · exact .inr ⟨by rw [calls, hc, Out.ok_bind, hf]; rfl, o :: pre, i, post, r :: rs, t'', rfl, .cons hs hh⟩
    · exact .inr ⟨by rw [calls, hc]; rfl, [], i, os, [], t, rfl, .nil⟩

/-- C68: any sequence of calls on a new heap, with any comparison function, returns what `HeapCalls` says: no item is lost or
invented, and if the function orders the items, `heap_peek`, `heap_pop` and `heap_replace` give one that none of the others comes
before.  The exception is `heap_get` on an empty heap, which aborts the process. -/
theorem C68_calls (cmp : α → α → Int) (os : List (Op α)) (hl : os.length < 2 ^ 64) :
    (∃ rs s, calls cmp [] os = .ok rs ∧ HeapCalls cmp ([], true) os rs s) ∨
    (calls cmp [] os = .fault .abort ∧
      ∃ pre i post rs t, os = pre ++ .get i :: post ∧ HeapCalls cmp ([], true) pre rs ([], t)) :=
  heap_calls cmp os [] true (by simpa using hl) fun _ _ p i _ _ a b ha => by simp at ha

/-- Without `heap_get` no sequence of calls faults. -/
theorem C68_safe (cmp : α → α → Int) (os : List (Op α)) (hl : os.length < 2 ^ 64) (hg : ∀ i, Op.get i ∉ os) :
    ∃ rs s, calls cmp [] os = .ok rs ∧ HeapCalls cmp ([], true) os rs s := by
  rcases C68_calls cmp os hl with h | ⟨_, pre, i, post, _, _, rfl, _⟩
  · exact h
  · exact absurd (by simp) (hg i)

/-- Emptying a heap in order. -/
theorem heap_drain {cmp : α → α → Int} (ho : Orders cmp) : ∀ (n : Nat) (v : List α), v.length = n → Tidy cmp 0 v →
    ∃ ys : List α, calls cmp v (List.replicate n .pop) = .ok (ys.map fun y => .item (some y)) ∧ ys.Perm v ∧
      ys.Pairwise (fun a b => ¬ cmp b a < 0)
  | 0, v, hv, _ => ⟨[], rfl, by rw [List.length_eq_zero_iff.1 hv], .nil⟩
  | n + 1, [], hv, _ => by simp at hv
  | n + 1, x :: m, hv, h => by
    obtain ⟨w, hw, hp, ht⟩ := pop_spec cmp x m
    obtain ⟨ys, hy, hyp, hs⟩ := heap_drain ho n w (by rw [hp.length_eq]; simpa using hv) (ht ho h)
    refine ⟨x :: ys, ?_, (hyp.trans hp).cons x, List.pairwise_cons.2 ⟨fun y hy' => ?_, hs⟩⟩
    · rw [List.replicate_succ, calls, call, hw]
      simp only [Out.ok_bind, hy, List.map_cons]
    · exact (h.least ho (x := x) rfl).2 y (List.mem_cons_of_mem x ((hyp.trans hp).mem_iff.1 hy'))

theorem heap_fill {cmp : α → α → Int} (ho : Orders cmp) : ∀ (xs v : List α), Tidy cmp 0 v → ∃ w, w.Perm (xs ++ v) ∧ Tidy cmp 0 w ∧
    ∀ qs, calls cmp v (xs.map Op.push ++ qs) = (do
      let r ← calls cmp w qs
      .ok (xs.map (fun _ => Ret.unit) ++ r))
  | [], v, h => ⟨v, .refl _, h, fun qs => by simp only [List.map_nil, List.nil_append]; cases calls cmp v qs <;> rfl⟩
  | x :: xs, v, h => by
    obtain ⟨u, hu, hp, ht⟩ := push_spec cmp v x
    obtain ⟨w, hwp, hwt, hw⟩ := heap_fill ho xs u (ht ho h)
    refine ⟨w, hwp.trans ((hp.append_left xs).trans List.perm_middle), hwt, fun qs => ?_⟩
    rw [List.map_cons, List.cons_append, calls, call, hu]
    simp only [Out.ok_bind, hw]
    cases calls cmp w qs <;> rfl

theorem heap_gather (cmp : α → α → Int) : ∀ (xs v : List α) (qs : List (Op α)), calls cmp v (xs.map Op.add ++ qs) = (do
      let r ← calls cmp (v ++ xs) qs
      .ok (xs.map (fun _ => Ret.unit) ++ r))
  | [], v, qs => by simp only [List.map_nil, List.nil_append, List.append_nil]; cases calls cmp v qs <;> rfl
  | x :: xs, v, qs => by
    rw [List.map_cons, List.cons_append, calls, call]
    simp only [Out.ok_bind, heap_gather cmp xs (v ++ [x]) qs, List.append_assoc, List.singleton_append]
    cases calls cmp (v ++ x :: xs) qs <;> rfl

/-- C68: items put in with `heap_push` come out of `heap_pop` in order, each once. -/
theorem C68_sorts {cmp : α → α → Int} (ho : Orders cmp) (xs : List α) :
    ∃ ys : List α, ys.Perm xs ∧ ys.Pairwise (fun a b => ¬ cmp b a < 0) ∧
      calls cmp [] (xs.map Op.push ++ List.replicate xs.length .pop) =
        .ok (xs.map (fun _ => Ret.unit) ++ ys.map fun y => .item (some y)) := by
  obtain ⟨w, hp, ht, hw⟩ := heap_fill ho xs [] (fun p i _ _ a b ha => by simp at ha)
  obtain ⟨ys, hy, hyp, hs⟩ := heap_drain ho xs.length w (by rw [hp.length_eq]; simp) ht
  refine ⟨ys, hyp.trans (by simpa using hp), hs, ?_⟩
  rw [hw, hy]; rfl

/-- C68: the same for items put in with `heap_add` and one `heap_heapify`. -/
theorem C68_heapify_sorts {cmp : α → α → Int} (ho : Orders cmp) (xs : List α) :
    ∃ ys : List α, ys.Perm xs ∧ ys.Pairwise (fun a b => ¬ cmp b a < 0) ∧
      calls cmp [] (xs.map Op.add ++ .heapify :: List.replicate xs.length .pop) =
        .ok (xs.map (fun _ => Ret.unit) ++ .unit :: ys.map fun y => .item (some y)) := by
  obtain ⟨w, hw, hp, ht⟩ := heapify_spec cmp xs
  obtain ⟨ys, hy, hyp, hs⟩ := heap_drain ho xs.length w (by rw [hp.length_eq]) (ht ho)
  refine ⟨ys, hyp.trans hp, hs, ?_⟩
  rw [heap_gather, List.nil_append, calls, call, hw]
  simp only [Out.ok_bind, hy]

/-- Numbers by size. -/
def exCmp (a b : Nat) : Int := (a : Int) - b

theorem exCmp_orders : Orders exCmp := by
  constructor
  · intro a b; simp only [exCmp]; omega
  · intro a b c; simp only [exCmp]; omega

/-- Seven numbers, one of them twice, come out in order; so do numbers added first and put in order afterwards.  Items may be
replaced in between. -/
example :
    calls exCmp [] ([5, 3, 9, 1, 4, 9, 2].map Op.push ++ List.replicate 8 .pop) =
      .ok (List.replicate 7 .unit ++ [1, 2, 3, 4, 5, 9, 9].map (fun y => .item (some y)) ++ [.item none]) ∧
    calls exCmp [] [.add 7, .add 6, .add 8, .add 2, .get 3, .heapify, .replace 9, .clip 3, .peek, .pop, .size, .reset, .pop] =
      .ok [.unit, .unit, .unit, .unit, .item (some 2), .unit, .item (some 2), .unit, .item (some 6), .item (some 6), .num 2, .unit,
        .item none] := by
  decide +kernel

/-- `heap_get` on an empty heap aborts the process, though it returns NULL for other indexes there is no item at. -/
theorem C68_get_counterexample :
    calls exCmp [] [.get 0] = .fault .abort ∧ calls exCmp [] [.push 5, .get 1] = .ok [.unit, .item none] := by
  decide +kernel

/-- After `heap_add` without `heap_heapify` the item `heap_pop` gives need not be the first. -/
theorem C68_add_counterexample : calls exCmp [] [.push 5, .add 3, .pop] = .ok [.unit, .unit, .item (some 5)] := by
  decide +kernel

/-- A comparison function that does not order the items: nothing is lost, but the first to come out is before none. -/
example : ¬ Orders (fun _ _ : Nat => (-1 : Int)) ∧
    calls (fun _ _ : Nat => (-1 : Int)) [] [.push 1, .push 2, .push 3, .pop, .pop, .pop] =
      .ok [.unit, .unit, .unit, .item (some 3), .item (some 2), .item (some 1)] :=
  ⟨fun h => h.asymm 0 0 (by decide) (by decide), by decide +kernel⟩

end Verif.Props
