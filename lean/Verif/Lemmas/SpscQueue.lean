import Verif.Spec.SpscQueue

/-!
# Lemmas about the queue of one producer and one consumer
-/

namespace Verif.SpscQueue

open Verif.Spec

/-! ## Positions -/

/-- The number of items between two positions. -/
def between (head tail num : Nat) : Nat := if tail ≤ head then head - tail else head + num - tail

/-- The position `i` places after another. -/
def slot (num tail i : Nat) : Nat := if tail + i < num then tail + i else tail + i - num

theorem mod_num {k : Nat} (hk : k ≤ 31) (x : Nat) : x % 2 ^ 32 &&& (2 ^ k - 1) = x % 2 ^ k := by
  rw [Nat.and_two_pow_sub_one_eq_mod, Nat.mod_mod_of_dvd _ (Nat.pow_dvd_pow 2 (by omega))]

theorem wrapped {k : Nat} (hk : k ≤ 31) {a b : Nat} (ha : a < 2 ^ k) (hb : b ≤ 2 ^ k) :
    sub32 a b &&& (2 ^ k - 1) = if b ≤ a then a - b else if b = a + 2 ^ k then 0 else a + 2 ^ k - b := by
  have hd : 2 ^ 32 = 2 ^ k * 2 ^ (32 - k) := by rw [← Nat.pow_add]; congr 1; omega
  have hm : 2 ^ (32 - k) = (2 ^ (32 - k) - 1) + 1 := by have := Nat.two_pow_pos (32 - k); omega
  unfold sub32
  rw [mod_num hk]
  have h32 : a + 2 ^ 32 - b = (a + 2 ^ k - b) + 2 ^ k * (2 ^ (32 - k) - 1) := by
    have hz : 2 ^ k * 2 ^ (32 - k) = 2 ^ k * (2 ^ (32 - k) - 1) + 2 ^ k := by
      conv => lhs; rw [hm, Nat.mul_add, Nat.mul_one]
    rw [hd, hz]
    omega
  rw [h32, Nat.add_mul_mod_self_left]
  split
  · next h =>
    have : a + 2 ^ k - b = (a - b) + 2 ^ k := by omega
    rw [this, Nat.add_mod_right, Nat.mod_eq_of_lt (by omega)]
  · split
    · next h => rw [h]; simp
    · rw [Nat.mod_eq_of_lt (by omega)]

theorem count_eq {k : Nat} (hk : k ≤ 31) {h t : Nat} (hh : h < 2 ^ k) (ht : t < 2 ^ k) :
    count h t (2 ^ k) = between h t (2 ^ k) := by
  unfold count between
  rw [wrapped hk hh (by omega)]
  split
  · rfl
  · split
    · omega
    · rfl

theorem space_eq {k : Nat} (hk : k ≤ 31) {h t : Nat} (hh : h < 2 ^ k) (ht : t < 2 ^ k) :
    space h t (2 ^ k) = 2 ^ k - 1 - between h t (2 ^ k) := by
  unfold space between
  have h31 : 2 ^ k ≤ 2 ^ 31 := Nat.pow_le_pow_right (by omega) hk
  rw [Nat.mod_eq_of_lt (by omega), wrapped hk ht (by omega)]
  repeat' split
  all_goals omega

theorem next_eq {k : Nat} (hk : k ≤ 31) {i : Nat} (hi : i < 2 ^ k) : next i (2 ^ k) = if i + 1 = 2 ^ k then 0 else i + 1 := by
  unfold next
  rw [mod_num hk]
  split
  · next h => rw [h, Nat.mod_self]
  · exact Nat.mod_eq_of_lt (by omega)

theorem init_some {num size : Nat} {q : Queue} (h : init num size = some q) :
    2 ≤ num ∧ (∃ k, num = 2 ^ k) ∧ q = ⟨fun _ => 0, num, size, 0, 0⟩ := by
  unfold init at h
  split at h
  · exact absurd h (by simp)
  · next hc =>
    have h2 : ¬ num < 2 := fun x => hc (.inl x)
    have ha : (num - 1) &&& num = 0 := Classical.byContradiction fun x => hc (.inr x)
    refine ⟨by omega, ?_, (Option.some.inj h).symm⟩
    rw [Nat.and_comm] at ha
    exact (Nat.and_sub_one_eq_zero_iff_isPowerOfTwo (by omega)).1 ha

theorem init_iff {num size : Nat} : (init num size).isSome = true ↔ 2 ≤ num ∧ ∃ k, num = 2 ^ k := by
  constructor
  · intro h
    obtain ⟨q, hq⟩ := Option.isSome_iff_exists.1 h
    exact ⟨(init_some hq).1, (init_some hq).2.1⟩
  · intro ⟨h2, h⟩
    have := (Nat.and_sub_one_eq_zero_iff_isPowerOfTwo (n := num) (by omega)).2 h
    rw [Nat.and_comm] at this
    simp [init, this, h2]

/-! ## The contents -/

/-- The queue holds the items `l`. -/
structure Has (q : Queue) (l : List Bytes) : Prop where
  pow : ∃ k, k ≤ 31 ∧ q.num = 2 ^ k
  two : 2 ≤ q.num
  fits : q.num * q.size ≤ 2 ^ 32
  head : q.head < q.num
  tail : q.tail < q.num
  len : l.length = between q.head q.tail q.num
  size : ∀ (i : Nat) (x : Bytes), l[i]? = some x → x.length = q.size
  byte : ∀ (i : Nat) (x : Bytes), l[i]? = some x → ∀ j, j < q.size → x[j]? = some (q.data (slot q.num q.tail i * q.size + j))

theorem Has.lt {q l} (h : Has q l) : l.length < q.num := by
  rw [h.len]; unfold between
  have := h.head; have := h.tail
  split <;> omega

theorem Has.room {q l} (h : Has q l) : space q.head q.tail q.num = q.num - 1 - l.length := by
  obtain ⟨k, hk, hn⟩ := h.pow
  have h1 := h.head; have h2 := h.tail
  rw [hn] at h1 h2
  rw [h.len, hn, space_eq hk h1 h2]

theorem Has.stock {q l} (h : Has q l) : count q.head q.tail q.num = l.length := by
  obtain ⟨k, hk, hn⟩ := h.pow
  have h1 := h.head; have h2 := h.tail
  rw [hn] at h1 h2
  rw [h.len, hn, count_eq hk h1 h2]

theorem Has.step {q l} (h : Has q l) {i : Nat} (hi : i < q.num) : next i q.num = if i + 1 = q.num then 0 else i + 1 := by
  obtain ⟨k, hk, hn⟩ := h.pow
  rw [hn] at hi ⊢
  exact next_eq hk hi

theorem in_range {a n s j : Nat} (ha : a < n) (hj : j < s) : a * s + j < n * s := by
  have := Nat.mul_le_mul_right s (show a + 1 ≤ n by omega)
  rw [Nat.add_mul] at this
  omega

theorem apart {a b s i j : Nat} (hab : a ≠ b) (hi : i < s) (hj : j < s) : a * s + i ≠ b * s + j := by
  intro h
  rcases Nat.lt_or_gt_of_ne hab with h1 | h1
  · have := in_range h1 hi
    omega
  · have := in_range h1 hj
    omega

theorem Has.place {q l} (h : Has q l) {a j : Nat} (ha : a < q.num) (hj : j < q.size) : place q a = a * q.size := by
  have := in_range ha hj
  have := h.fits
  exact Nat.mod_eq_of_lt (by omega)

theorem Has.head_slot {q l} (h : Has q l) : q.head = slot q.num q.tail l.length := by
  have := h.head; have := h.tail
  rw [h.len]; unfold between slot
  repeat' split
  all_goals omega

theorem slot_lt {num t i : Nat} (ht : t < num) (hi : i < num) : slot num t i < num := by
  unfold slot; split <;> omega

theorem slot_ne {num t i j : Nat} (ht : t < num) (hi : i < num) (hj : j < num) (h : i ≠ j) : slot num t i ≠ slot num t j := by
  unfold slot; repeat' split
  all_goals omega

theorem Has.start {num size : Nat} {q : Queue} (h : init num size = some q) (h32 : num < 2 ^ 32) (hf : num * size ≤ 2 ^ 32) :
    Has q [] := by
  obtain ⟨h2, ⟨k, hk⟩, rfl⟩ := init_some h
  refine ⟨⟨k, ?_, hk⟩, h2, hf, by simp; omega, by simp; omega, by simp [between], by simp, by simp⟩
  rw [hk] at h32
  have := (Nat.pow_lt_pow_iff_right (a := 2) (by omega)).1 h32
  omega

/-- A byte written to the place after the last item leaves the items. -/
theorem Has.put {q l} (h : Has q l) {item : Bytes} {j : Nat} (hi : item.length = q.size) (hj : j < q.size) :
    ∃ q', putByte q item q.head j = .ok q' ∧ Has q' l ∧ q'.num = q.num ∧ q'.size = q.size ∧ q'.head = q.head ∧ q'.tail = q.tail ∧
      some (q'.data (q.head * q.size + j)) = item[j]? ∧ ∀ p, p ≠ q.head * q.size + j → q'.data p = q.data p := by
  have hb : item[j]? = some item[j] := List.getElem?_eq_getElem (by omega)
  have hp := h.place h.head hj
  refine ⟨{ q with data := fun x => if x = q.head * q.size + j then item[j] else q.data x }, ?_, ?_, rfl, rfl, rfl, rfl, ?_, ?_⟩
  · unfold putByte
    rw [hb]
    simp only [hp, if_pos (in_range h.head hj)]
  · refine ⟨h.pow, h.two, h.fits, h.head, h.tail, h.len, h.size, ?_⟩
    intro i x hx m hm
    have hil : i < l.length := by
      rcases Nat.lt_or_ge i l.length with g | g
      · exact g
      · rw [List.getElem?_eq_none g] at hx; exact absurd hx (by simp)
    have hl := h.lt
    have hne : slot q.num q.tail i ≠ q.head := by
      rw [h.head_slot]
      exact slot_ne h.tail (by omega) hl (by omega)
    simp only [if_neg (apart hne hm hj)]
    exact h.byte i x hx m hm
  · simp [hb]
  · intro p hp'
    simp [hp']

/-- A byte of the first item. -/
theorem Has.get {q l} {x : Bytes} (h : Has q (x :: l)) {j : Nat} (hj : j < q.size) :
    ∃ b, getByte q q.tail j = .ok b ∧ x[j]? = some b := by
  refine ⟨q.data (q.tail * q.size + j), ?_, ?_⟩
  · unfold getByte
    rw [h.place h.tail hj]
    simp only [if_pos (in_range h.tail hj)]
  · have := h.byte 0 x (by simp) j hj
    have hs : slot q.num q.tail 0 = q.tail := by have := h.tail; simp [slot, this]
    rw [hs] at this
    exact this

/-- The place after the last item, filled, becomes an item. -/
theorem Has.publish {q l} (h : Has q l) {item : Bytes} (hi : item.length = q.size) (hc : l.length < q.num - 1)
    (hd : ∀ j, j < q.size → item[j]? = some (q.data (q.head * q.size + j))) :
    Has { q with head := next q.head q.num } (l ++ [item]) := by
  have hh := h.head; have ht := h.tail; have hl := h.len
  have hs := h.step hh
  refine ⟨h.pow, h.two, h.fits, ?_, h.tail, ?_, ?_, ?_⟩
  · simp only [hs]; split <;> omega
  · simp only [List.length_append, List.length_cons, List.length_nil, hs]
    unfold between at hl ⊢
    repeat' split
    all_goals (split at hl <;> omega)
  · intro i x hx
    rw [List.getElem?_append] at hx
    split at hx
    · exact h.size i x hx
    · next hge =>
      match e : i - l.length, hx with
      | 0, hx => simp at hx; subst hx; exact hi
      | n + 1, hx => simp at hx
  · intro i x hx j hj
    rw [List.getElem?_append] at hx
    split at hx
    · exact h.byte i x hx j hj
    · next hge =>
      match e : i - l.length, hx with
      | 0, hx =>
        simp at hx; subst hx
        have : i = l.length := by omega
        rw [this]
        have := hd j hj
        rw [h.head_slot] at this
        exact this
      | n + 1, hx => simp at hx

/-- The first item goes. -/
theorem Has.drop {q l} {x : Bytes} (h : Has q (x :: l)) : Has { q with tail := next q.tail q.num } l := by
  have hh := h.head; have ht := h.tail; have hl := h.len
  have hlt := h.lt
  have hs := h.step ht
  simp only [List.length_cons] at hl hlt
  refine ⟨h.pow, h.two, h.fits, h.head, ?_, ?_, ?_, ?_⟩
  · simp only [hs]; split <;> omega
  · simp only [hs]
    unfold between at hl ⊢
    repeat' split
    all_goals (split at hl <;> omega)
  · intro i y hy
    exact h.size (i + 1) y (by simpa using hy)
  · intro i y hy j hj
    have hil : i < l.length := by
      rcases Nat.lt_or_ge i l.length with g | g
      · exact g
      · rw [List.getElem?_eq_none g] at hy; exact absurd hy (by simp)
    have := h.byte (i + 1) y (by simpa using hy) j hj
    have e : slot q.num (next q.tail q.num) i = slot q.num q.tail (i + 1) := by
      rw [hs]; unfold slot
      repeat' split
      all_goals omega
    simp only [e]
    exact this

/-! ## With the lock -/

theorem putAll_spec {item : Bytes} : ∀ n j q l, Has q l → item.length = q.size → j + n = q.size →
    (∀ i, i < j → item[i]? = some (q.data (q.head * q.size + i))) →
    ∃ q', putAll item q.head n j q = .ok q' ∧ Has q' l ∧ q'.num = q.num ∧ q'.size = q.size ∧ q'.head = q.head ∧
      ∀ i, i < q.size → item[i]? = some (q'.data (q.head * q.size + i)) := by
  intro n
  induction n with
  | zero => intro j q l h _ hj hd; exact ⟨q, rfl, h, rfl, rfl, rfl, fun i hi => hd i (by omega)⟩
  | succ n ih =>
    intro j q l h hi hj hd
    obtain ⟨q1, e1, h1, hn, hs, hh, ht, hb, ho⟩ := h.put hi (j := j) (by omega)
    obtain ⟨q2, e2, h2, hn2, hs2, hh2, hd2⟩ := ih (j + 1) q1 l h1 (by rw [hs]; exact hi) (by omega) (by
      intro i hij
      rw [hh, hs]
      rcases Nat.lt_or_ge i j with g | g
      · rw [ho _ (by omega)]; exact hd i g
      · have : i = j := by omega
        rw [this, hb])
    rw [hh] at e2
    refine ⟨q2, ?_, h2, by rw [hn2, hn], by rw [hs2, hs], by rw [hh2, hh], ?_⟩
    · show (putByte q item q.head j).bind _ = _
      rw [e1]; exact e2
    · intro i hi'
      have := hd2 i (by rw [hs]; exact hi')
      rw [hh, hs] at this
      exact this

theorem getAll_spec {q l} {x : Bytes} (h : Has q (x :: l)) : ∀ n j, j + n = q.size → getAll q q.tail n j = .ok (x.drop j) := by
  have hx := h.size 0 x (by simp)
  intro n
  induction n with
  | zero => intro j hj; rw [List.drop_eq_nil_of_le (by omega)]; rfl
  | succ n ih =>
    intro j hj
    obtain ⟨b, eb, hb⟩ := h.get (j := j) (by omega)
    show (getByte q q.tail j).bind _ = _
    rw [eb]
    show (getAll q q.tail n (j + 1)).bind _ = _
    rw [ih (j + 1) (by omega)]
    have hlt : j < x.length := by omega
    rw [List.getElem?_eq_getElem hlt] at hb
    rw [List.drop_eq_getElem_cons hlt, Option.some.inj hb]
    rfl

theorem insert_spec {q l} (h : Has q l) {item : Bytes} (hi : item.length = q.size) :
    ∃ q' r l', insert q item = .ok (q', r) ∧ Has q' l' ∧ q'.num = q.num ∧ q'.size = q.size ∧ QueueCall (q.num - 1) l r l' ∧
      (r = .full item ∨ ∃ n, r = .inserted item n) := by
  have hl := h.lt
  unfold insert
  simp only [h.room]
  split
  · next hs =>
    obtain ⟨q1, e1, h1, hn, hz, hh, hd⟩ := putAll_spec q.size 0 q l h hi (by omega) (by intro i hi; omega)
    have h2 := h1.publish (item := item) (by rw [hz]; exact hi) (by rw [hn]; omega) (by rw [hz, hh]; exact hd)
    refine ⟨_, .inserted item (q.num - 1 - (l.length + 1)), _, ?_, h2, hn, hz, .inserted (by omega), .inr ⟨_, rfl⟩⟩
    show (putAll item q.head q.size 0 q).bind _ = _
    rw [e1]
    have : q.num - 1 - l.length - 1 = q.num - 1 - (l.length + 1) := by omega
    rw [this]
    rfl
  · next hs => exact ⟨q, _, l, rfl, h, rfl, rfl, .full (by omega), .inl rfl⟩

theorem remove_spec {q l} (h : Has q l) :
    ∃ q' r l', remove q = .ok (q', r) ∧ Has q' l' ∧ q'.num = q.num ∧ q'.size = q.size ∧ QueueCall (q.num - 1) l r l' ∧
      (r = .empty ∨ ∃ x n, r = .removed x n) := by
  unfold remove
  simp only [h.stock]
  match l, h with
  | [], h => exact ⟨q, _, [], rfl, h, rfl, rfl, .empty, .inl rfl⟩
  | x :: l, h =>
    have e := getAll_spec h q.size 0 (by omega)
    rw [List.drop_zero] at e
    rw [if_pos (by simp)]
    refine ⟨_, .removed x l.length, l, ?_, h.drop, rfl, rfl, .removed, .inr ⟨_, _, rfl⟩⟩
    rw [e]
    rfl

theorem calls_spec : ∀ cs q l, Has q l → (∀ x, some x ∈ cs → x.length = q.size) →
    ∃ q' rs l', calls q cs = .ok (q', rs) ∧ QueueSeq (QueueCall (q.num - 1)) l rs l' ∧ rs.length = cs.length ∧
      ∀ i, i < cs.length → (∀ x, cs[i]? = some (some x) → rs[i]? = some (.full x) ∨ ∃ n, rs[i]? = some (.inserted x n)) ∧
        (cs[i]? = some none → rs[i]? = some .empty ∨ ∃ x n, rs[i]? = some (.removed x n)) := by
  intro cs
  induction cs with
  | nil => intro q l _ _; exact ⟨q, [], l, rfl, .nil, rfl, by intro i hi; simp at hi⟩
  | cons c cs ih =>
    intro q l h hc
    have one : ∃ q' r l', call q c = .ok (q', r) ∧ Has q' l' ∧
        q'.num = q.num ∧ q'.size = q.size ∧ QueueCall (q.num - 1) l r l' ∧
        (∀ x, c = some x → r = .full x ∨ ∃ n, r = .inserted x n) ∧ (c = none → r = .empty ∨ ∃ x n, r = .removed x n) := by
      cases c with
      | none =>
        obtain ⟨q', r, l', e, h', hn, hz, hq, hr⟩ := remove_spec h
        exact ⟨q', r, l', e, h', hn, hz, hq, by simp, fun _ => hr⟩
      | some x =>
        obtain ⟨q', r, l', e, h', hn, hz, hq, hr⟩ := insert_spec h (hc x (by simp))
        exact ⟨q', r, l', e, h', hn, hz, hq, by intro y hy; rw [← Option.some.inj hy]; exact hr, by simp⟩
    obtain ⟨q1, r, l1, e, h1, hn, hz, hq, hr1, hr2⟩ := one
    obtain ⟨q2, rs, l2, e2, hs, hlen, hall⟩ := ih q1 l1 h1 (by intro x hx; rw [hz]; exact hc x (by simp [hx]))
    refine ⟨q2, r :: rs, l2, ?_, .cons hq (by rw [← hn]; exact hs), by simp [hlen], ?_⟩
    · show (call q c).bind _ = _
      rw [e]
      show (calls q1 cs).bind _ = _
      rw [e2]
      rfl
    · intro i hi
      cases i with
      | zero => exact ⟨fun x hx => by simpa using hr1 x (by simpa using hx), fun hx => by simpa using hr2 (by simpa using hx)⟩
      | succ i => simpa using hall i (by simpa using hi)

/-! ## With barriers -/

/-- What is known while the producer is in a call. -/
def ProducerOk (q : Queue) (l : List Bytes) : Producer → Prop
  | .idle => True
  | .loaded item h => item.length = q.size ∧ h = q.head
  | .copying item h sp d => item.length = q.size ∧ h = q.head ∧ 1 ≤ sp ∧ sp + l.length ≤ q.num - 1 ∧ d ≤ q.size ∧
      ∀ i, i < d → item[i]? = some (q.data (h * q.size + i))

/-- What is known while the consumer is in a call. -/
def ConsumerOk (q : Queue) (l : List Bytes) : Consumer → Prop
  | .idle => True
  | .copying t n item => t = q.tail ∧ 1 ≤ n ∧ n ≤ l.length ∧ item.length ≤ q.size ∧ item = (l.headD []).take item.length

/-- The queue holds the items `l`, and the threads are where they should be. -/
structure Going (s : State) (l : List Bytes) : Prop where
  has : Has s.q l
  p : ProducerOk s.q l s.p
  c : ConsumerOk s.q l s.c

/-- Steps of the producer since its call began. -/
def producerAt (size : Nat) : Producer → Nat
  | .idle => 0
  | .loaded _ _ => 1
  | .copying _ _ _ d => 2 + min d size

/-- Steps of the consumer since its call began. -/
def consumerAt (size : Nat) : Consumer → Nat
  | .idle => 0
  | .copying _ _ item => 1 + min item.length size

/-- The rest of the contents of `QueueTurn`: nothing returned. -/
inductive Turn (cap : Nat) : List Bytes → Option Ret → List Bytes → Prop where
  | quiet {l} : Turn cap l none l
  | turn {l r m} : QueueTurn cap l r m → Turn cap l (some r) m

theorem producerStep_spec {s l} (h : Going s l) {item : Bytes} (hi : item.length = s.q.size) :
    ∃ s' r l', producerStep s item = .ok (s', r) ∧ Going s' l' ∧ s'.q.num = s.q.num ∧ s'.q.size = s.q.size ∧
      Turn (s.q.num - 1) l r l' ∧ consumerReturns r.toList = 0 ∧ s'.c = s.c ∧
      producerAt s.q.size s.p + 1 ≤ producerAt s.q.size s'.p + (s.q.size + 3) * producerReturns r.toList := by
  obtain ⟨q, p, c⟩ := s
  obtain ⟨hq, hp, hc⟩ := h
  simp only at hq hp hc hi ⊢
  cases p with
  | idle =>
    exact ⟨⟨q, .loaded item q.head, c⟩, none, l, rfl, ⟨hq, ⟨hi, rfl⟩, hc⟩, rfl, rfl, .quiet, rfl, rfl, by simp [producerAt, producerReturns]⟩
  | loaded x hd =>
    obtain ⟨hx, rfl⟩ := hp
    have hl := hq.lt
    unfold producerStep
    simp only [hq.room]
    split
    · next hs =>
      exact ⟨_, none, l, rfl, ⟨hq, ⟨hx, rfl, hs, by show q.num - 1 - l.length + l.length ≤ q.num - 1; omega, by omega, by intro i h; omega⟩, hc⟩, rfl, rfl, .quiet, rfl, rfl,
        by simp [producerAt, producerReturns]⟩
    · next hs =>
      exact ⟨_, some (.full x), l, rfl, ⟨hq, trivial, hc⟩, rfl, rfl, .turn (.full (by omega)), rfl, rfl,
        by simp [producerAt, producerReturns]⟩
  | copying x hd sp d =>
    obtain ⟨hx, rfl, h1, hsp, hd, hb⟩ := hp
    unfold producerStep
    simp only
    split
    · next hlt =>
      obtain ⟨q', e, hq', hn, hz, hh, ht, hbyte, ho⟩ := hq.put hx hlt
      refine ⟨⟨q', .copying x q.head sp (d + 1), c⟩, none, l, ?_, ⟨hq', ⟨?_, hh.symm, h1, ?_, ?_, ?_⟩, ?_⟩, hn, hz, .quiet, rfl,
        rfl, ?_⟩
      · show (putByte q x q.head d).bind _ = _
        rw [e]; rfl
      · rw [hz]; exact hx
      · rw [hn]; exact hsp
      · rw [hz]; omega
      · intro i hid
        simp only [hz]
        rcases Nat.lt_or_ge i d with g | g
        · rw [ho _ (by omega)]; exact hb i g
        · have : i = d := by omega
          rw [this, hbyte]
      · cases c with
        | idle => trivial
        | copying t n y =>
          obtain ⟨rfl, c1, c2, c3, c4⟩ := hc
          exact ⟨ht.symm, c1, c2, by rw [hz]; exact c3, c4⟩
      · simp only [producerAt, producerReturns, Option.toList]
        omega
    · next hge =>
      have hde : d = q.size := by omega
      subst hde
      refine ⟨_, _, l ++ [x], rfl, ⟨hq.publish hx (by omega) hb, trivial, ?_⟩, rfl, rfl,
        .turn (.inserted (by omega)), rfl, rfl, ?_⟩
      · cases c with
        | idle => trivial
        | copying t n y =>
          obtain ⟨rfl, c1, c2, c3, c4⟩ := hc
          refine ⟨rfl, c1, by simp; omega, c3, ?_⟩
          cases l with
          | nil => simp at c2; omega
          | cons a l => exact c4
      · simp only [producerAt, producerReturns, Option.toList]
        omega

theorem consumerStep_spec {s l} (h : Going s l) :
    ∃ s' r l', consumerStep s = .ok (s', r) ∧ Going s' l' ∧ s'.q.num = s.q.num ∧ s'.q.size = s.q.size ∧
      Turn (s.q.num - 1) l r l' ∧ producerReturns r.toList = 0 ∧ s'.p = s.p ∧
      consumerAt s.q.size s.c + 1 ≤ consumerAt s.q.size s'.c + (s.q.size + 2) * consumerReturns r.toList := by
  obtain ⟨q, p, c⟩ := s
  obtain ⟨hq, hp, hc⟩ := h
  simp only at hq hp hc ⊢
  cases c with
  | idle =>
    unfold consumerStep
    simp only [hq.stock]
    split
    · next hs =>
      exact ⟨_, none, l, rfl, ⟨hq, hp, ⟨rfl, hs, Nat.le_refl _, by simp, by simp⟩⟩, rfl, rfl, .quiet, rfl, rfl,
        by simp [consumerAt, consumerReturns]⟩
    · next hs =>
      cases l with
      | nil => exact ⟨_, _, [], rfl, ⟨hq, hp, trivial⟩, rfl, rfl, .turn .empty, rfl, rfl, by simp [consumerAt, consumerReturns]⟩
      | cons a l => simp at hs
  | copying t n y =>
    obtain ⟨rfl, c1, c2, c3, c4⟩ := hc
    cases l with
    | nil => simp at c2; omega
    | cons x l =>
      have hx := hq.size 0 x (by simp)
      simp only [List.headD_cons] at c4
      unfold consumerStep
      simp only
      split
      · next hlt =>
        obtain ⟨b, e, hb⟩ := hq.get hlt
        refine ⟨⟨q, p, .copying q.tail n (y ++ [b])⟩, none, x :: l, ?_, ⟨hq, hp, ⟨rfl, c1, c2, by simp; omega, ?_⟩⟩, rfl, rfl,
          .quiet, rfl, rfl, ?_⟩
        · show (getByte q q.tail y.length).bind _ = _
          rw [e]; rfl
        · simp only [List.length_append, List.length_cons, List.length_nil, List.headD_cons]
          rw [List.take_add_one, ← c4, hb]
          rfl
        · simp only [consumerAt, consumerReturns, Option.toList, List.length_append, List.length_cons, List.length_nil]
          omega
      · next hge =>
        have hy : y = x := by rw [c4, List.take_of_length_le (by omega)]
        refine ⟨_, some (.removed y (n - 1)), l, rfl, ⟨hq.drop, ?_, trivial⟩, rfl, rfl, .turn ?_, rfl, rfl, ?_⟩
        · cases p with
          | idle => trivial
          | loaded it hd => exact hp
          | copying it hd sp d =>
            obtain ⟨p1, p2, p3, p4, p5, p6⟩ := hp
            exact ⟨p1, p2, p3, by simp at p4 ⊢; omega, p5, p6⟩
        · rw [hy]
          exact .removed (by simp at c2; omega)
        · simp only [consumerAt, consumerReturns, Option.toList]
          omega

theorem step_spec {s l} (h : Going s l) (a : Option Bytes) (ha : ∀ x, a = some x → x.length = s.q.size) :
    ∃ s' r l', step s a = .ok (s', r) ∧ Going s' l' ∧ s'.q.num = s.q.num ∧ s'.q.size = s.q.size ∧ Turn (s.q.num - 1) l r l' ∧
      producerAt s.q.size s.p + (if a.isSome then 1 else 0) ≤
        producerAt s.q.size s'.p + (s.q.size + 3) * producerReturns r.toList ∧
      consumerAt s.q.size s.c + (if a.isNone then 1 else 0) ≤
        consumerAt s.q.size s'.c + (s.q.size + 2) * consumerReturns r.toList := by
  cases a with
  | some x =>
    obtain ⟨s', r, l', e, g, hn, hz, ht, hc0, hc, hp⟩ := producerStep_spec h (ha x rfl)
    exact ⟨s', r, l', e, g, hn, hz, ht, by simpa using hp, by simp [hc0, hc]⟩
  | none =>
    obtain ⟨s', r, l', e, g, hn, hz, ht, hp0, hp, hc⟩ := consumerStep_spec h
    exact ⟨s', r, l', e, g, hn, hz, ht, by simp [hp0, hp], by simpa using hc⟩

theorem producerReturns_append (a b : List Ret) : producerReturns (a ++ b) = producerReturns a + producerReturns b := by
  induction a with
  | nil => simp [producerReturns]
  | cons r a ih => cases r <;> simp [producerReturns, ih] <;> omega

theorem consumerReturns_append (a b : List Ret) : consumerReturns (a ++ b) = consumerReturns a + consumerReturns b := by
  induction a with
  | nil => simp [consumerReturns]
  | cons r a ih => cases r <;> simp [consumerReturns, ih] <;> omega

theorem run_spec : ∀ as s l, Going s l → (∀ x, some x ∈ as → x.length = s.q.size) →
    ∃ s' rs l', run s as = .ok (s', rs) ∧ QueueSeq (QueueTurn (s.q.num - 1)) l rs l' ∧ Going s' l' ∧ s'.q.num = s.q.num ∧
      s'.q.size = s.q.size ∧
      producerAt s.q.size s.p + as.countP (·.isSome) ≤ producerAt s.q.size s'.p + (s.q.size + 3) * producerReturns rs ∧
      consumerAt s.q.size s.c + as.countP (·.isNone) ≤ consumerAt s.q.size s'.c + (s.q.size + 2) * consumerReturns rs := by
  intro as
  induction as with
  | nil => intro s l g _; exact ⟨s, [], l, rfl, .nil, g, rfl, rfl, by simp, by simp⟩
  | cons a as ih =>
    intro s l g ha
    obtain ⟨s1, r, l1, e1, g1, hn, hz, ht, hp, hc⟩ := step_spec g a (by intro x hx; exact ha x (by simp [hx]))
    obtain ⟨s2, rs, l2, e2, hs, g2, hn2, hz2, hp2, hc2⟩ := ih s1 l1 g1 (by intro x hx; rw [hz]; exact ha x (by simp [hx]))
    rw [hz] at hp2 hc2
    refine ⟨s2, r.toList ++ rs, l2, ?_, ?_, g2, by rw [hn2, hn], by rw [hz2, hz], ?_, ?_⟩
    · show (step s a).bind _ = _
      rw [e1]
      show (run s1 as).bind _ = _
      rw [e2]
      rfl
    · rw [hn] at hs
      cases ht with
      | quiet => exact hs
      | turn h => exact .cons h hs
    · rw [List.countP_cons, producerReturns_append, Nat.mul_add]
      omega
    · rw [List.countP_cons, consumerReturns_append, Nat.mul_add]
      omega

/-! ## A call during which the other thread makes no step -/

theorem run_cons {s s1 s2 : State} {a as r rs} (h1 : step s a = .ok (s1, r)) (h2 : run s1 as = .ok (s2, rs)) :
    run s (a :: as) = .ok (s2, r.toList ++ rs) := by
  show (step s a).bind _ = _
  rw [h1]
  show (run s1 as).bind _ = _
  rw [h2]
  rfl

theorem copy_in {item : Bytes} : ∀ n x q c l sp d, Has q l → item.length = q.size → d + n = q.size →
    ∃ s, run ⟨q, .copying item q.head sp d, c⟩ (List.replicate (n + 1) (some x)) = .ok (s, [.inserted item (sp - 1)]) ∧
      s.p = .idle := by
  intro n
  induction n with
  | zero =>
    intro x q c l sp d h hi hd
    refine ⟨⟨{ q with head := next q.head q.num }, .idle, c⟩, run_cons (r := some (.inserted item (sp - 1))) (rs := []) ?_ rfl, rfl⟩
    simp only [step, producerStep]
    rw [if_neg (by omega)]
  | succ n ih =>
    intro x q c l sp d h hi hd
    obtain ⟨q', e, hq', hn, hz, hh, _⟩ := h.put hi (show d < q.size by omega)
    obtain ⟨s, hs, hp⟩ := ih x q' c l sp (d + 1) hq' (by omega) (by omega)
    refine ⟨s, run_cons (r := none) (s1 := ⟨q', .copying item q'.head sp (d + 1), c⟩) ?_ hs, hp⟩
    simp only [step, producerStep]
    rw [if_pos (by omega), e, hh]
    rfl

theorem copy_out : ∀ n q p l x k y, Has q (x :: l) → y = x.take y.length → y.length + n = q.size →
    ∃ s, run ⟨q, p, .copying q.tail k y⟩ (List.replicate (n + 1) none) = .ok (s, [.removed x (k - 1)]) ∧ s.c = .idle := by
  intro n
  induction n with
  | zero =>
    intro q p l x k y h hy hd
    have hx := h.size 0 x (by simp)
    have hyx : y = x := by rw [hy, List.take_of_length_le (by omega)]
    subst hyx
    refine ⟨⟨{ q with tail := next q.tail q.num }, p, .idle⟩, run_cons (r := some (.removed y (k - 1))) (rs := []) ?_ rfl, rfl⟩
    simp only [step, consumerStep]
    rw [if_neg (by omega)]
  | succ n ih =>
    intro q p l x k y h hy hd
    obtain ⟨b, e, hb⟩ := h.get (show y.length < q.size by omega)
    obtain ⟨s, hs, hp⟩ := ih q p l x k (y ++ [b]) h (by
      simp only [List.length_append, List.length_cons, List.length_nil]
      rw [List.take_add_one, ← hy, hb]
      rfl) (by simp; omega)
    refine ⟨s, run_cons (r := none) (s1 := ⟨q, p, .copying q.tail k (y ++ [b])⟩) ?_ hs, hp⟩
    simp only [step, consumerStep]
    rw [if_pos (by omega), e]
    rfl

theorem insert_alone {s l} (h : Going s l) (hp : s.p = .idle) {x : Bytes} (hx : x.length = s.q.size) :
    (l.length < s.q.num - 1 → ∃ s', run s (List.replicate (s.q.size + 3) (some x)) =
      .ok (s', [.inserted x (s.q.num - 1 - (l.length + 1))]) ∧ s'.p = .idle) ∧
    (l.length = s.q.num - 1 → ∃ s', run s (List.replicate 2 (some x)) = .ok (s', [.full x]) ∧ s'.p = .idle) := by
  obtain ⟨q, p, c⟩ := s
  obtain ⟨hq, -, -⟩ := h
  simp only at hq hp hx ⊢
  subst hp
  have hr := hq.room
  constructor
  · intro hl
    obtain ⟨s', e, hs⟩ := copy_in q.size x q c l (q.num - 1 - l.length) 0 hq hx (by omega)
    refine ⟨s', ?_, hs⟩
    rw [show q.num - 1 - (l.length + 1) = q.num - 1 - l.length - 1 by omega]
    refine run_cons (r := none) (s1 := ⟨q, .loaded x q.head, c⟩) rfl
      (run_cons (r := none) (s1 := ⟨q, .copying x q.head (q.num - 1 - l.length) 0, c⟩) ?_ e)
    simp only [step, producerStep, hr]
    rw [if_pos (by omega)]
  · intro hl
    refine ⟨⟨q, .idle, c⟩, ?_, rfl⟩
    refine run_cons (r := none) (s1 := ⟨q, .loaded x q.head, c⟩) rfl (run_cons (r := some (.full x)) (rs := []) ?_ rfl)
    simp only [step, producerStep, hr]
    rw [if_neg (by omega)]

theorem remove_alone {s l} (h : Going s l) (hc : s.c = .idle) :
    (∀ x m, l = x :: m → ∃ s', run s (List.replicate (s.q.size + 2) none) = .ok (s', [.removed x m.length]) ∧ s'.c = .idle) ∧
    (l = [] → ∃ s', run s [none] = .ok (s', [.empty]) ∧ s'.c = .idle) := by
  obtain ⟨q, p, c⟩ := s
  obtain ⟨hq, -, -⟩ := h
  simp only at hq hc ⊢
  subst hc
  have hr := hq.stock
  constructor
  · rintro x m rfl
    obtain ⟨s', e, hs⟩ := copy_out q.size q p m x (m.length + 1) [] hq (by simp) (by simp)
    refine ⟨s', run_cons (r := none) (s1 := ⟨q, p, .copying q.tail (m.length + 1) []⟩) ?_ e, hs⟩
    simp only [step, consumerStep, hr, List.length_cons]
    rw [if_pos (by omega)]
  · rintro rfl
    refine ⟨⟨q, p, .idle⟩, run_cons (r := some .empty) (rs := []) ?_ rfl, rfl⟩
    simp only [step, consumerStep, hr]
    rfl

/-! ## What the sequence says about the items -/

theorem insertedItems_turn {cap l rs m} (h : QueueSeq (QueueTurn cap) l rs m) :
    l ++ insertedItems rs = removedItems rs ++ m ∧ (l.length ≤ cap → m.length ≤ cap) := by
  induction h with
  | nil => simp [insertedItems, removedItems]
  | cons h _ ih =>
    cases h with
    | inserted hc => exact ⟨by simpa [insertedItems, removedItems] using ih.1, fun _ => ih.2 (by simp; omega)⟩
    | full _ => exact ih
    | removed _ => exact ⟨by simpa [insertedItems, removedItems] using ih.1, fun hl => ih.2 (by simp at hl; omega)⟩
    | empty => exact ih

theorem producerAt_le (size : Nat) (p : Producer) : producerAt size p ≤ size + 2 := by
  cases p <;> simp [producerAt] <;> omega

theorem consumerAt_le (size : Nat) (c : Consumer) : consumerAt size c ≤ size + 1 := by
  cases c <;> simp [consumerAt] <;> omega

/-! ## Places that overlap -/

theorem putAll_wide {item : Bytes} {h : Nat} : ∀ n j q, place q h + j + n ≤ q.num * q.size → j + n = item.length →
    ∃ d, putAll item h n j q = .ok { q with data := d } ∧
      ∀ x, d x = if place q h + j ≤ x ∧ x < place q h + j + n then item.getD (x - place q h) 0 else q.data x := by
  intro n
  induction n with
  | zero =>
    intro j q _ _
    exact ⟨q.data, rfl, fun x => by rw [if_neg (by omega)]⟩
  | succ n ih =>
    intro j q hp hl
    have hb : item[j]? = some (item.getD j 0) := by
      rw [List.getD_eq_getElem?_getD, List.getElem?_eq_getElem (by omega)]
      rfl
    have e1 : putByte q item h j =
        .ok { q with data := fun x => if x = place q h + j then item.getD j 0 else q.data x } := by
      unfold putByte
      rw [hb]
      simp only [if_pos (show place q h + j < q.num * q.size by omega)]
    obtain ⟨d, e2, hd⟩ := ih (j + 1) { q with data := fun x => if x = place q h + j then item.getD j 0 else q.data x }
      (by show place q h + (j + 1) + n ≤ q.num * q.size; omega) (by omega)
    refine ⟨d, ?_, ?_⟩
    · show (putByte q item h j).bind _ = _
      rw [e1]
      exact e2
    · intro x
      rw [hd x]
      show (if place q h + (j + 1) ≤ x ∧ x < place q h + (j + 1) + n then item.getD (x - place q h) 0
        else if x = place q h + j then item.getD j 0 else q.data x) = _
      by_cases hx : x = place q h + j
      · rw [if_neg (by omega), if_pos hx, if_pos (by omega)]
        congr 1
        omega
      · by_cases hy : place q h + (j + 1) ≤ x ∧ x < place q h + (j + 1) + n
        · rw [if_pos hy, if_pos (by omega)]
        · rw [if_neg hy, if_neg hx, if_neg (by omega)]

theorem getAll_wide {q : Queue} {t : Nat} {c : Bytes} : ∀ n j, place q t + j + n ≤ q.num * q.size → j + n = c.length →
    (∀ i, i < c.length → q.data (place q t + i) = c.getD i 0) → getAll q t n j = .ok (c.drop j) := by
  intro n
  induction n with
  | zero => intro j _ hl _; rw [List.drop_eq_nil_of_le (by omega)]; rfl
  | succ n ih =>
    intro j hp hl hd
    have hlt : j < c.length := by omega
    have e1 : getByte q t j = .ok c[j] := by
      unfold getByte
      simp only [if_pos (show place q t + j < q.num * q.size by omega), hd j hlt, List.getD_eq_getElem?_getD,
        List.getElem?_eq_getElem hlt, Option.getD_some]
    show (getByte q t j).bind _ = _
    rw [e1]
    show (getAll q t n (j + 1)).bind _ = _
    rw [ih (j + 1) (by omega) (by omega) hd, List.drop_eq_getElem_cons hlt]
    rfl

theorem insert_wide {d : Nat → UInt8} {num size head head' tail sp : Nat} {item : Bytes} (hs : space head tail num = sp + 1)
    (hn : next head num = head') (hp : head * size % 2 ^ 32 + size ≤ num * size) (hl : size = item.length) :
    ∃ d', insert ⟨d, num, size, head, tail⟩ item = .ok (⟨d', num, size, head', tail⟩, .inserted item sp) ∧
      ∀ i, i < item.length → d' (head * size % 2 ^ 32 + i) = item.getD i 0 := by
  obtain ⟨d', e, hd⟩ := putAll_wide (item := item) (h := head) size 0 ⟨d, num, size, head, tail⟩
    (by show head * size % 2 ^ 32 + 0 + size ≤ num * size; omega) (by omega)
  refine ⟨d', ?_, ?_⟩
  · simp only [insert, hs, if_pos (show sp + 1 ≥ 1 by omega)]
    show (putAll item head size 0 _).bind _ = _
    rw [e]
    show Out.ok _ = _
    rw [Nat.add_sub_cancel]
    show Out.ok (Queue.mk d' num size (next head num) tail, _) = _
    rw [hn]
  · intro i hi
    have := hd (head * size % 2 ^ 32 + i)
    have hpl : place ⟨d, num, size, head, tail⟩ head = head * size % 2 ^ 32 := rfl
    rw [hpl, if_pos (by omega), Nat.add_sub_cancel_left] at this
    exact this

theorem remove_wide {d : Nat → UInt8} {num size head tail tail' n : Nat} {item : Bytes} (hs : count head tail num = n + 1)
    (hn : next tail num = tail') (hp : tail * size % 2 ^ 32 + size ≤ num * size) (hl : size = item.length)
    (hd : ∀ i, i < item.length → d (tail * size % 2 ^ 32 + i) = item.getD i 0) :
    remove ⟨d, num, size, head, tail⟩ = .ok (⟨d, num, size, head, tail'⟩, .removed item n) := by
  have e := getAll_wide (q := ⟨d, num, size, head, tail⟩) (t := tail) (c := item) size 0
    (by show tail * size % 2 ^ 32 + 0 + size ≤ num * size; omega) (by omega) hd
  simp only [remove, hs, if_pos (show n + 1 ≥ 1 by omega)]
  rw [e]
  show Out.ok _ = _
  rw [Nat.add_sub_cancel, List.drop_zero]
  show Out.ok (Queue.mk d num size head (next tail num), _) = _
  rw [hn]

theorem calls_cons {q q1 q2 : Queue} {c : Option Bytes} {cs : List (Option Bytes)} {r : Ret} {rs : List Ret}
    (h1 : call q c = .ok (q1, r)) (h2 : calls q1 cs = .ok (q2, rs)) : calls q (c :: cs) = .ok (q2, r :: rs) := by
  show (call q c).bind _ = _
  rw [h1]
  show (calls q1 cs).bind _ = _
  rw [h2]
  rfl

theorem wide_calls {z : Nat} (hz : 2 * z = 2 ^ 32) {a b c : Bytes} (ha : a.length = z) (hb : b.length = z) (hc : c.length = z) :
    ∃ q', calls ⟨fun _ => 0, 4, z, 0, 0⟩ [some a, some b, some c, none] =
      .ok (q', [.inserted a 2, .inserted b 1, .inserted c 0, .removed c 2]) := by
  have m0 : 0 * z % 2 ^ 32 = 0 := by simp
  have m1 : 1 * z % 2 ^ 32 = z := by rw [Nat.one_mul]; omega
  have m2 : 2 * z % 2 ^ 32 = 0 := by rw [hz]
  obtain ⟨d1, e1, _⟩ := insert_wide (d := fun _ => 0) (num := 4) (size := z) (head := 0) (head' := 1) (tail := 0) (sp := 2)
    (item := a) (by decide) (by decide) (by omega) ha.symm
  obtain ⟨d2, e2, _⟩ := insert_wide (d := d1) (num := 4) (size := z) (head := 1) (head' := 2) (tail := 0) (sp := 1) (item := b)
    (by decide) (by decide) (by omega) hb.symm
  obtain ⟨d3, e3, h3⟩ := insert_wide (d := d2) (num := 4) (size := z) (head := 2) (head' := 3) (tail := 0) (sp := 0) (item := c)
    (by decide) (by decide) (by omega) hc.symm
  rw [m2] at h3
  have e4 := remove_wide (d := d3) (num := 4) (size := z) (head := 3) (tail := 0) (tail' := 1) (n := 2) (item := c) (by decide)
    (by decide) (by omega) hc.symm (by rw [m0]; exact h3)
  exact ⟨_, calls_cons e1 (calls_cons e2 (calls_cons e3 (calls_cons e4 rfl)))⟩

end Verif.SpscQueue
