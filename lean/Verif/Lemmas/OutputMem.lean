import Verif.Model.OutputMem
import Verif.Lemmas.EntryMem
import Verif.Lemmas.Tame

/-! The output functions in memory make the text of the output functions without memory. -/

namespace Verif

/-! ## Buffers -/

/-- The heap while text is made: the array of the buffer holds `b`. -/
def during (n : Nat) (pre post : List (Nat × Bytes)) (a : Nat) (b : Bytes) : Heap := ⟨n, pre ++ (a, b) :: post⟩

/-- The buffer is apart from the other blocks. -/
structure Framed (pre post : List (Nat × Bytes)) (u : VecMem) : Prop where
  before : u.arr ∉ pre.map Prod.fst
  after : u.arr ∉ post.map Prod.fst
  self : u.self ∈ (pre ++ post).map Prod.fst
  apart : u.self ≠ u.arr

/-- What `x` does to the buffer is what `f` does to its bytes; the other blocks are not changed, except that those in `pre`
become those in `pre'`. -/
def Fmt {α : Type} (pre pre' post : List (Nat × Bytes)) (u : VecMem) (x : Mem α) (f : Bytes → Out (Bytes × α)) : Prop :=
  ∀ n b, (∀ y ∈ pre ++ post, y.1 < n) → u.arr < n →
    match f b with
    | .ok r => ∃ n', n ≤ n' ∧ (∀ y ∈ pre' ++ post, y.1 < n') ∧
        x (during n pre post u.arr b) = .ok (r.2, during n' pre' post u.arr r.1)
    | .fail => x (during n pre post u.arr b) = .fail
    | .fault t => x (during n pre post u.arr b) = .fault t

theorem out_bind_assoc {α β γ : Type} (x : Out α) (f : α → Out β) (g : β → Out γ) :
    (x >>= f) >>= g = x >>= fun a => f a >>= g := by cases x <;> rfl

section fmt
variable {α β : Type} {pre pre' pre'' post : List (Nat × Bytes)} {u : VecMem}

theorem mem_bind_eq (x : Mem α) (y : α → Mem β) (h : Heap) :
    (x >>= y) h = match x h with | .ok (a, h') => y a h' | .fail => .fail | .fault f => .fault f := by
  show (x h >>= fun p => y p.1 p.2) = _
  cases x h <;> rfl

theorem Fmt.bind {x : Mem α} {y : α → Mem β} {f : Bytes → Out (Bytes × α)} {g : α → Bytes → Out (Bytes × β)}
    (hx : Fmt pre pre' post u x f) (hy : ∀ a, Fmt pre' pre'' post u (y a) (g a)) :
    Fmt pre pre'' post u (x >>= y) fun b => f b >>= fun r => g r.2 r.1 := by
  intro n b hn ha
  have h1 := hx n b hn ha
  rw [mem_bind_eq]
  dsimp only
  cases hf : f b with
  | ok r =>
    rw [hf] at h1
    obtain ⟨n1, hle, hb, e1⟩ := h1
    have h2 := hy r.2 n1 r.1 hb (Nat.lt_of_lt_of_le ha hle)
    rw [e1, Out.ok_bind]
    cases hg : g r.2 r.1 with
    | ok r2 =>
      rw [hg] at h2
      obtain ⟨n2, hle2, hb2, e2⟩ := h2
      exact ⟨n2, Nat.le_trans hle hle2, hb2, e2⟩
    | fail => rw [hg] at h2; exact h2
    | fault t => rw [hg] at h2; exact h2
  | fail => rw [hf] at h1; rw [h1]; exact rfl
  | fault t => rw [hf] at h1; rw [h1]; exact rfl

theorem Fmt.pure (a : α) : Fmt pre pre post u (pure a) fun b => .ok (b, a) := fun n b h _ => ⟨n, Nat.le_refl _, h, rfl⟩

theorem Fmt.congr {x : Mem α} {f g : Bytes → Out (Bytes × α)} (h : Fmt pre pre' post u x f) (e : ∀ b, f b = g b) :
    Fmt pre pre' post u x g := by
  have : f = g := funext e
  rwa [← this]

/-- A step that changes nothing. -/
theorem Fmt.read {x : Mem α} {y : α → Mem β} {a : α} {g : Bytes → Out (Bytes × β)}
    (hx : ∀ n b, x (during n pre post u.arr b) = .ok (a, during n pre post u.arr b)) (hy : Fmt pre pre' post u (y a) g) :
    Fmt pre pre' post u (x >>= y) g := by
  intro n b hn ha
  rw [mem_bind_eq, hx]
  exact hy n b hn ha

theorem Fmt.mPure {o : Out α} {y : α → Mem β} {g : α → Bytes → Out (Bytes × β)}
    (hy : ∀ a, Fmt pre pre' post u (y a) (g a)) :
    Fmt pre pre' post u (mPure o >>= y) fun b => o >>= fun a => g a b := by
  intro n b hn ha
  rw [mem_bind_eq]
  cases o with
  | ok a => exact hy a n b hn ha
  | fail => rfl
  | fault t => rfl

theorem Fmt.fault (t : Fault) : Fmt pre pre' post u (Verif.mPure (.fault t) : Mem α) fun _ => .fault t := fun _ _ _ _ => rfl

theorem lookup_append_of_notMem {l r : List (Nat × Bytes)} {p : Nat} (h : p ∉ l.map Prod.fst) :
    (l ++ r).lookup p = r.lookup p := by
  induction l with
  | nil => rfl
  | cons x l ih =>
    obtain ⟨k, c⟩ := x
    simp only [List.map_cons, List.mem_cons, not_or] at h
    rw [List.cons_append, List.lookup_cons, beq_eq_false_iff_ne.2 h.1]
    exact ih h.2

/-- A block other than the buffer. -/
theorem lookup_during {p : Nat} {c b : Bytes} {n : Nat} (hp : p ≠ u.arr) (h : (pre ++ post).lookup p = some c) :
    mLoad p (during n pre post u.arr b) = .ok (c, during n pre post u.arr b) := by
  have : (pre ++ (u.arr, b) :: post).lookup p = some c := by
    rw [← h]
    clear h
    induction pre with
    | nil => rw [List.nil_append, List.nil_append, List.lookup_cons, beq_eq_false_iff_ne.2 hp]
    | cons x l ih =>
      obtain ⟨k, d⟩ := x
      simp only [List.cons_append, List.lookup_cons]
      rw [ih]
  unfold mLoad during
  simp only [this]

theorem lookup_isSome {l : List (Nat × Bytes)} {p : Nat} (h : p ∈ l.map Prod.fst) : ∃ c, l.lookup p = some c := by
  induction l with
  | nil => cases h
  | cons x l ih =>
    obtain ⟨k, d⟩ := x
    rw [List.lookup_cons]
    cases hk : p == k with
    | true => exact ⟨d, rfl⟩
    | false =>
      simp only [List.map_cons, List.mem_cons] at h
      rcases h with h | h
      · rw [beq_eq_false_iff_ne] at hk
        exact absurd h hk
      · exact ih h

theorem touch_during {p : Nat} (hp : p ≠ u.arr) (h : p ∈ (pre ++ post).map Prod.fst) (n : Nat) (b : Bytes) :
    mTouch p (during n pre post u.arr b) = .ok ((), during n pre post u.arr b) := by
  obtain ⟨c, hc⟩ := lookup_isSome h
  unfold mTouch
  rw [mem_bind_eq, lookup_during hp hc]
  rfl

theorem load_during (h : Framed pre post u) (n : Nat) (b : Bytes) :
    mLoad u.arr (during n pre post u.arr b) = .ok (b, during n pre post u.arr b) := by
  unfold mLoad during
  simp only [lookup_append_of_notMem h.before, List.lookup_cons, beq_self_eq_true]

theorem map_other {l : List (Nat × Bytes)} {p : Nat} (b : Bytes) (h : p ∉ l.map Prod.fst) :
    (l.map fun x => if x.1 = p then (p, b) else x) = l := by
  induction l with
  | nil => rfl
  | cons x l ih =>
    simp only [List.map_cons, List.mem_cons, not_or] at h ⊢
    rw [if_neg (fun e => h.1 e.symm), ih h.2]

theorem store_during (h : Framed pre post u) (n : Nat) (b c : Bytes) :
    mStore u.arr c (during n pre post u.arr b) = .ok ((), during n pre post u.arr c) := by
  unfold mStore during
  simp only
  rw [if_pos (by simp)]
  simp only [List.map_append, List.map_cons, if_true, map_other c h.before, map_other c h.after]

theorem Framed.fmt (h : Framed pre post u) (f : Bytes → Out (Bytes × α)) : Fmt pre pre post u (ubufMem u f) f := by
  intro n b hn ha
  unfold ubufMem
  rw [mem_bind_eq, touch_during h.apart h.self]
  simp only
  rw [mem_bind_eq, load_during h]
  simp only
  rw [mem_bind_eq]
  cases hf : f b with
  | ok r =>
    refine ⟨n, Nat.le_refl _, hn, ?_⟩
    show (mStore u.arr r.1 >>= fun _ => (Pure.pure r.2 : Mem α)) _ = _
    rw [mem_bind_eq, store_during h]
    rfl
  | fail => rfl
  | fault t => rfl

theorem Framed.text (h : Framed pre post u) (f : Bytes → Out Bytes) :
    Fmt pre pre post u (ubufTextMem u f) fun b => f b >>= fun b => .ok (b, ()) := h.fmt _

theorem Framed.add (h : Framed pre post u) (s : Bytes) : Fmt pre pre post u (ubufAddMem u s) fun b => .ok (b ++ s, ()) :=
  h.text _

theorem Framed.cstr (h : Framed pre post u) (s : Bytes) :
    Fmt pre pre post u (ubufAddCstrMem u s) fun b => .ok (addCstrTo b s, ()) := h.text _

/-! ## Strings -/

/-- `x` makes a string: a new block with the contents of `o`, while the other blocks are not changed. -/
def Makes (l : List (Nat × Bytes)) (x : Mem Nat) (o : Out Bytes) : Prop :=
  ∀ n, (∀ y ∈ l, y.1 < n) →
    match o with
    | .ok s => ∃ k n', n ≤ k ∧ k < n' ∧ x ⟨n, l⟩ = .ok (k, ⟨n', (k, s) :: l⟩)
    | .fail => x ⟨n, l⟩ = .fail
    | .fault t => x ⟨n, l⟩ = .fault t

/-- A string is made and used. -/
theorem Fmt.make {x : Mem Nat} {y : Nat → Mem β} {o : Out Bytes} {g : Bytes → Bytes → Out (Bytes × β)}
    (hx : ∀ b, Makes (pre ++ (u.arr, b) :: post) x o)
    (hy : ∀ k s, k ∉ (pre ++ post).map Prod.fst → k ≠ u.arr → Fmt ((k, s) :: pre) pre' post u (y k) (g s)) :
    Fmt pre pre' post u (x >>= y) fun b => o >>= fun s => g s b := by
  intro n b hn ha
  have h1 := hx b n (fun y hy => by
    simp only [List.mem_append, List.mem_cons] at hy hn
    rcases hy with hy | rfl | hy
    · exact hn y (.inl hy)
    · exact ha
    · exact hn y (.inr hy))
  rw [mem_bind_eq]
  cases o with
  | ok s =>
    obtain ⟨k, n1, hk, hk1, e⟩ := h1
    have hlt : ∀ y ∈ ((k, s) :: pre) ++ post, y.1 < n1 := by
      intro y hy
      simp only [List.cons_append, List.mem_cons] at hy
      rcases hy with rfl | hy
      · exact hk1
      · exact Nat.lt_of_lt_of_le (hn y hy) (Nat.le_of_lt (Nat.lt_of_le_of_lt hk hk1))
    have h2 := hy k s (by
        intro hm
        obtain ⟨y, hy, rfl⟩ := List.mem_map.1 hm
        exact Nat.lt_irrefl _ (Nat.lt_of_lt_of_le (hn y hy) hk))
      (fun e => by subst e; exact Nat.lt_irrefl _ (Nat.lt_of_lt_of_le ha hk)) n1 b hlt
      (Nat.lt_of_lt_of_le ha (Nat.le_of_lt (Nat.lt_of_le_of_lt hk hk1)))
    unfold during
    rw [e]
    dsimp only
    rw [Out.ok_bind]
    cases hg : g s b with
    | ok r =>
      rw [hg] at h2
      obtain ⟨n2, hle, hb, e2⟩ := h2
      exact ⟨n2, by omega, hb, e2⟩
    | fail => rw [hg] at h2; exact h2
    | fault t => rw [hg] at h2; exact h2
  | fail =>
    unfold during
    rw [h1]
    exact rfl
  | fault t =>
    unfold during
    rw [h1]
    exact rfl

theorem Fmt.free {k : Nat} {s : Bytes} (hk : k ∉ (pre ++ post).map Prod.fst) (ha : k ≠ u.arr) :
    Fmt ((k, s) :: pre) pre post u (mFree (some k)) fun b => .ok (b, ()) := by
  intro n b hn _
  refine ⟨n, Nat.le_refl _, fun y hy => hn y (List.mem_cons_of_mem _ hy), ?_⟩
  unfold mFree during
  simp only [List.cons_append, List.map_cons, List.mem_cons, true_or, if_true]
  rw [List.filter_cons_of_neg (by simp)]
  congr 3
  rw [List.filter_eq_self]
  intro y hy
  simp only [List.mem_append, List.mem_cons] at hy
  simp only [List.map_append, List.mem_append, List.mem_map, not_or, not_exists, not_and] at hk
  simp only [ne_eq, decide_not, Bool.not_eq_true', decide_eq_false_iff_not]
  rcases hy with hy | rfl | hy
  · exact hk.1 y hy
  · exact fun e => ha e.symm
  · exact hk.2 y hy

/-- The new string can be read. -/
theorem Fmt.loadNew {k : Nat} {s : Bytes} {y : Bytes → Mem β} {g : Bytes → Out (Bytes × β)}
    (hy : Fmt ((k, s) :: pre) pre' post u (y s) g) (ha : k ≠ u.arr) : Fmt ((k, s) :: pre) pre' post u (mLoad k >>= y) g :=
  Fmt.read (fun n b => lookup_during ha (by simp)) hy

theorem Framed.push (h : Framed pre post u) {k : Nat} {s : Bytes} (ha : k ≠ u.arr) : Framed ((k, s) :: pre) post u := by
  refine ⟨?_, h.after, ?_, h.apart⟩
  · simp only [List.map_cons, List.mem_cons, not_or]
    exact ⟨fun e => ha e.symm, h.before⟩
  · simp only [List.cons_append, List.map_cons, List.mem_cons]
    exact .inr h.self

/-! ## The entry -/

/-- The block can be read, and holds `c`. -/
def Sees (pre post : List (Nat × Bytes)) (u : VecMem) (p : Nat) (c : Bytes) : Prop :=
  ∀ n b, mLoad p (during n pre post u.arr b) = .ok (c, during n pre post u.arr b)

/-- The block is there. -/
def Present (pre post : List (Nat × Bytes)) (u : VecMem) (p : Nat) : Prop :=
  ∀ n b, mTouch p (during n pre post u.arr b) = .ok ((), during n pre post u.arr b)

/-- Both blocks of the vector are there. -/
def VecPresent (pre post : List (Nat × Bytes)) (u v : VecMem) : Prop :=
  Present pre post u v.self ∧ Present pre post u v.arr

/-- The blocks of the entry are there. -/
structure Seen (pre post : List (Nat × Bytes)) (u : VecMem) (m : EntryMem) : Prop where
  self : Present pre post u m.self
  vec : VecPresent pre post u m.vec
  length : m.rdatas.length = m.e.rdatas.length
  rdatas : ∀ b ∈ m.rdatas.zip m.e.rdatas, Sees pre post u b.1 b.2
  name : ∀ p, m.name = some p → Sees pre post u p m.e.name
  bailiwick : ∀ p, m.bailiwick = some p → Sees pre post u p m.e.bailiwick
  map : ∀ v, m.rrtypeMap = some v → VecPresent pre post u v
  source : ∀ v, m.sourceInfo = some v → VecPresent pre post u v

theorem VecPresent.touch {v : VecMem} (h : VecPresent pre post u v) (n : Nat) (b : Bytes) :
    vecTouchMem v (during n pre post u.arr b) = .ok ((), during n pre post u.arr b) := by
  unfold vecTouchMem
  rw [mem_bind_eq, h.1]
  exact h.2 n b

theorem VecPresent.fmt {v : VecMem} {y : Unit → Mem β} {g : Bytes → Out (Bytes × β)} (h : VecPresent pre post u v)
    (hy : Fmt pre pre' post u (y ()) g) : Fmt pre pre' post u (vecTouchMem v >>= y) g := Fmt.read h.touch hy

theorem Present.fmt {p : Nat} {y : Unit → Mem β} {g : Bytes → Out (Bytes × β)} (h : Present pre post u p)
    (hy : Fmt pre pre' post u (y ()) g) : Fmt pre pre' post u (mTouch p >>= y) g := Fmt.read h hy

theorem Fmt.ptr {q : Option Nat} {c : Bytes} {y : Bytes → Mem β} {g : Bytes → Out (Bytes × β)} (hq : q.isSome)
    (h : ∀ p, q = some p → Sees pre post u p c) (hy : Fmt pre pre' post u (y c) g) :
    Fmt pre pre' post u (ptrLoadMem q >>= y) g := by
  cases q with
  | none => cases hq
  | some p => exact Fmt.read (h p rfl) hy

theorem Fmt.touchIf {v : Option VecMem} {y : Unit → Mem β} {g : Bytes → Out (Bytes × β)}
    (h : ∀ w, v = some w → VecPresent pre post u w) (hy : Fmt pre pre' post u (y ()) g) :
    Fmt pre pre' post u (vecTouchIfMem v >>= y) g := by
  cases v with
  | none => exact Fmt.read (fun _ _ => rfl) hy
  | some w => exact (h w rfl).fmt hy

theorem makes_rdataStr {v : VecMem} {p : Nat} {d : Bytes} (w : Wdns) (rrtype : Nat) (hv : VecPresent pre post u v)
    (hp : Sees pre post u p d) (b : Bytes) :
    Makes (pre ++ (u.arr, b) :: post) (rdataStrMem w v rrtype p) (.ok (w.rdataToStr d (rrtype % 65536) ++ [0])) := by
  intro n _
  refine ⟨n, n + 1, Nat.le_refl _, Nat.lt_succ_self _, ?_⟩
  unfold rdataStrMem
  rw [mem_bind_eq]
  erw [hv.touch n b]
  dsimp only
  rw [mem_bind_eq, hp n b]
  rfl

theorem cstr_nul (s : Bytes) : cstr (s ++ [0]) = cstr s := by
  induction s with
  | nil => rfl
  | cons a s ih =>
    unfold cstr at ih ⊢
    rw [List.cons_append, List.takeWhile_cons, List.takeWhile_cons, ih]

/-- A record as the code appends it. -/
def recordBytes (w : Wdns) (b name : Bytes) (rrtype : Nat) (d : Bytes) : Bytes :=
  let b := addCstrTo b name
  let b := b ++ lit " IN "
  let b := fmtRrtype w b rrtype
  let b := b ++ lit " "
  let b := addCstrTo b (w.rdataToStr d (rrtype % 65536) ++ [0])
  b ++ [10]

/-- Records as the code appends them. -/
def recordsBytes (w : Wdns) (name : Bytes) (rrtype : Nat) : Bytes → List Bytes → Bytes
  | b, [] => b
  | b, d :: ds => recordsBytes w name rrtype (recordBytes w b name rrtype d) ds

theorem fmt_record {v : VecMem} {p : Nat} {d : Bytes} (hu : Framed pre post u) (w : Wdns) (name : Bytes) (rrtype : Nat)
    (hv : VecPresent pre post u v) (hp : Sees pre post u p d) :
    Fmt pre pre post u (recordMem w u v name rrtype p) fun b => .ok (recordBytes w b name rrtype d, ()) := by
  unfold recordMem
  refine (Fmt.make (makes_rdataStr w rrtype hv hp) (g := fun s b =>
    .ok (addCstrTo (fmtRrtype w (addCstrTo b name ++ lit " IN ") rrtype ++ lit " ") s ++ [10], ())) fun k s hk ha => ?_)
  have hu' := hu.push (s := s) ha
  refine ((hu'.cstr name).bind fun _ => (hu'.add _).bind fun _ => (hu'.text _).bind fun _ => (hu'.add _).bind fun _ =>
    Fmt.loadNew ((hu'.cstr s).bind fun _ => (hu'.add _).bind fun _ => Fmt.free hk ha) ha).congr fun b => rfl

theorem fmt_records (hu : Framed pre post u) (w : Wdns) (name : Bytes) (rrtype : Nat) {v : VecMem}
    (hv : VecPresent pre post u v) (ps : List Nat) (ds : List Bytes) (hl : ps.length = ds.length)
    (h : ∀ b ∈ ps.zip ds, Sees pre post u b.1 b.2) :
    Fmt pre pre post u (recordsMem w u v name rrtype ps) fun b => .ok (recordsBytes w name rrtype b ds, ()) := by
  induction ps generalizing ds with
  | nil =>
    cases ds with
    | nil => exact Fmt.pure ()
    | cons => cases hl
  | cons p ps ih =>
    cases ds with
    | nil => cases hl
    | cons d ds =>
      unfold recordsMem
      refine ((fmt_record hu w name rrtype hv (h (p, d) (by simp))).bind fun _ =>
        ih ds (by simpa using hl) (fun b hb => h b (by simp [hb]))).congr fun b => rfl

/-! ## Text -/

theorem fmt_textRrset {m : EntryMem} (hu : Framed pre post u) (hm : Seen pre post u m) (gmtime : Int → Option Tm)
    (L : Locale) (w : Wdns) (unixDates : Bool) (hn : m.name.isSome) (hb : m.bailiwick.isSome) :
    Fmt pre pre post u (textRrsetMem gmtime L w unixDates m u) fun b =>
      w.domainToStr m.e.bailiwick >>= fun name =>
      fmtUint64 L (addCstrTo (b ++ lit ";;  bailiwick: ") name ++ lit "\n;;      count: ") m.e.count >>= fun b =>
      timeText gmtime L unixDates (b ++ if m.e.iszone then lit "\n;; first seen in zone file: " else lit "\n;; first seen: ")
        m.e.timeFirst >>= fun b =>
      timeText gmtime L unixDates (b ++ if m.e.iszone then lit "\n;;  last seen in zone file: " else lit "\n;;  last seen: ")
        m.e.timeLast >>= fun b =>
      w.domainToStr m.e.name >>= fun name =>
      .ok (recordsBytes w name m.e.rrtype (b ++ [10]) m.e.rdatas, ()) := by
  unfold textRrsetMem
  refine (Fmt.ptr hb hm.bailiwick (Fmt.mPure fun name => (hu.add _).bind fun _ => (hu.cstr _).bind fun _ =>
    (hu.add _).bind fun _ => (hu.text _).bind fun _ => (hu.add _).bind fun _ => (hu.text _).bind fun _ =>
    (hu.add _).bind fun _ => (hu.text _).bind fun _ => (hu.add _).bind fun _ => Fmt.ptr hn hm.name
    (Fmt.mPure fun name => hm.vec.fmt (fmt_records hu w name m.e.rrtype hm.vec m.rdatas m.e.rdatas hm.length hm.rdatas)))).congr ?_
  intro b
  simp only [Out.ok_bind, out_bind_assoc]

theorem fmt_textRdata {m : EntryMem} (hu : Framed pre post u) (hm : Seen pre post u m) (w : Wdns) (hn : m.name.isSome) :
    Fmt pre pre post u (textRdataMem w m u) fun b =>
      match m.e.rdatas with
      | [d] => w.domainToStr m.e.name >>= fun name => .ok (recordBytes w b name m.e.rrtype d, false)
      | _ => .ok (b, true) := by
  have hl := hm.length
  have hr := hm.rdatas
  unfold textRdataMem
  refine hm.vec.fmt ?_
  revert hl hr
  generalize m.rdatas = ps
  generalize m.e.rdatas = ds
  intro hl hr
  match ps, ds, hl with
  | [], [], _ => exact Fmt.pure true
  | [p], [d], _ =>
    refine (Fmt.ptr hn hm.name (Fmt.mPure fun name => (fmt_record hu w name m.e.rrtype hm.vec (hr (p, d) (by simp))).bind
      fun _ => Fmt.pure false)).congr fun b => rfl
  | p :: q :: ps, d :: d' :: ds, _ => exact Fmt.pure true

theorem fmt_textIndex {m : EntryMem} (hu : Framed pre post u) (hm : Seen pre post u m) (w : Wdns) (tail : String)
    (hn : m.name.isSome) :
    Fmt pre pre post u (textIndexMem w tail m u) fun b =>
      w.domainToStr m.e.name >>= fun name => .ok (fmtRrtypesUnion w (addCstrTo b name) m.e ++ lit tail, ()) := by
  unfold textIndexMem
  refine Fmt.ptr hn hm.name (Fmt.mPure fun name => ?_)
  exact ((hu.cstr _).bind fun _ => Fmt.touchIf hm.map ((hu.text _).bind fun _ => hu.add _)).congr fun b => rfl

theorem fmt_textSource {m : EntryMem} (hu : Framed pre post u) (hm : Seen pre post u m) {s : Bytes}
    (hs : m.e.sourceInfo = some s) (hv : m.sourceInfo.isSome) :
    Fmt pre pre post u (textSourceMem m u) fun b => .ok (addCstrTo (b ++ lit ";; source info: ") s ++ [10], ()) := by
  unfold textSourceMem
  obtain ⟨v, hv⟩ := Option.isSome_iff_exists.1 hv
  rw [hs, hv]
  exact ((hu.add _).bind fun _ => (hm.source v hv).fmt ((hu.cstr _).bind fun _ => hu.add _)).congr fun b => rfl

/-- The pointers that the output functions follow are there. -/
structure Complete (m : EntryMem) : Prop where
  name : m.e.eType = tRRSET ∨ m.e.eType = tRDATA ∨ m.e.eType = tRRSET_NAME_FWD ∨ m.e.eType = tRDATA_NAME_REV → m.name.isSome
  bailiwick : m.e.eType = tRRSET → m.bailiwick.isSome
  source : m.e.eType = tSOURCE_INFO → m.sourceInfo.isSome ∧ m.e.sourceInfo.isSome

/-- What a body leaves in an empty buffer is the text; it goes to `out` if there is none. -/
def Agrees (r : Out (Bytes × Bool)) (x : Out Bytes) : Prop :=
  match x with
  | .ok t => r = .ok (t, false) ∧ t.getLast? ≠ some 0
  | .fail => ∃ b, r = .ok (b, true)
  | .fault f => r = .fault f

theorem addCstr_of {b : Bytes} (h : b.getLast? ≠ some 0) (s : Bytes) : addCstrTo b s = b ++ cstr s := by
  unfold addCstrTo
  rw [if_neg h]

theorem last_append {b s : Bytes} (hs : s.getLast? ≠ some 0) (hne : s ≠ []) : (b ++ s).getLast? ≠ some 0 := by
  rw [List.getLast?_append]
  cases h : s.getLast? with
  | none => exact absurd (List.getLast?_eq_none_iff.1 h) hne
  | some c => rw [h] at hs; exact hs

theorem recordBytes_eq (w : Wdns) {b : Bytes} (name : Bytes) (rrtype : Nat) (d : Bytes) (hb : b.getLast? ≠ some 0) :
    recordBytes w b name rrtype d = recordText w b name rrtype d := by
  unfold recordBytes recordText
  dsimp only
  rw [addCstr_of hb, addCstr_of (last_append (by decide) (by decide)), cstr_nul]

theorem recordText_last (w : Wdns) (b name : Bytes) (rrtype : Nat) (d : Bytes) :
    (recordText w b name rrtype d).getLast? ≠ some 0 := last_append (by decide) (by decide)

theorem recordsBytes_eq (w : Wdns) (name : Bytes) (rrtype : Nat) (ds : List Bytes) {b : Bytes} (hb : b.getLast? ≠ some 0) :
    recordsBytes w name rrtype b ds = recordsLoop w name rrtype b ds ∧
      (recordsLoop w name rrtype b ds).getLast? ≠ some 0 := by
  induction ds generalizing b with
  | nil => exact ⟨rfl, hb⟩
  | cons d ds ih =>
    unfold recordsBytes recordsLoop
    rw [recordBytes_eq w name rrtype d hb]
    exact ih (recordText_last w b name rrtype d)

theorem nofail_uint64 (L : Locale) (b : Bytes) (v : Nat) : fmtUint64 L b v ≠ .fail := by
  unfold fmtUint64
  dsimp only
  split <;> nofun

theorem agrees_rrset {e : Entry} (gmtime : Int → Option Tm) (L : Locale) (w : Wdns) (unixDates : Bool)
    (hw : ∀ n, w.domainToStr n ≠ .fail) (ht : ∀ b v, timeText gmtime L unixDates b v ≠ .fail) :
    Agrees (
      (w.domainToStr e.bailiwick >>= fun name =>
      fmtUint64 L (addCstrTo ([] ++ lit ";;  bailiwick: ") name ++ lit "\n;;      count: ") e.count >>= fun b =>
      timeText gmtime L unixDates (b ++ if e.iszone then lit "\n;; first seen in zone file: " else lit "\n;; first seen: ")
        e.timeFirst >>= fun b =>
      timeText gmtime L unixDates (b ++ if e.iszone then lit "\n;;  last seen in zone file: " else lit "\n;;  last seen: ")
        e.timeLast >>= fun b =>
      w.domainToStr e.name >>= fun name =>
      .ok (recordsBytes w name e.rrtype (b ++ [10]) e.rdatas, ())) >>= fun r => .ok (r.1, false))
      (textRrset gmtime L w unixDates e []) := by
  unfold textRrset
  have hi : ∀ (b x y : Bytes), (if e.iszone = true then b ++ x else b ++ y) = b ++ if e.iszone = true then x else y := by
    intro b x y; split <;> rfl
  dsimp only
  simp only [hi]
  cases h1 : w.domainToStr e.bailiwick with
  | fail => exact absurd h1 (hw _)
  | fault f => exact rfl
  | ok name =>
    rw [Out.ok_bind, Out.ok_bind, addCstr_of (last_append (by decide) (by decide))]
    generalize hc : fmtUint64 L _ _ = x
    cases x with
    | fail => exact absurd hc (nofail_uint64 _ _ _)
    | fault f => exact rfl
    | ok b =>
      rw [Out.ok_bind, Out.ok_bind]
      generalize hc : timeText gmtime L unixDates _ e.timeFirst = x
      cases x with
      | fail => exact absurd hc (ht _ _)
      | fault f => exact rfl
      | ok b =>
        rw [Out.ok_bind, Out.ok_bind]
        generalize hc : timeText gmtime L unixDates _ e.timeLast = x
        cases x with
        | fail => exact absurd hc (ht _ _)
        | fault f => exact rfl
        | ok b =>
          rw [Out.ok_bind, Out.ok_bind]
          cases h1 : w.domainToStr e.name with
          | fail => exact absurd h1 (hw _)
          | fault f => exact rfl
          | ok name =>
            have := recordsBytes_eq w name e.rrtype e.rdatas (b := b ++ [10]) (last_append (by decide) (by decide))
            exact ⟨by rw [← this.1]; rfl, this.2⟩

theorem agrees_text {m : EntryMem} (hu : Framed pre post u) (hm : Seen pre post u m) (hc : Complete m)
    (gmtime : Int → Option Tm) (L : Locale) (w : Wdns) (unixDates : Bool) (hw : ∀ n, w.domainToStr n ≠ .fail)
    (ht : ∀ b v, timeText gmtime L unixDates b v ≠ .fail) :
    ∃ f, Fmt pre pre post u (textKindMem gmtime L w unixDates m u) f ∧
      Agrees (f []) (entryToTextFmt gmtime L w unixDates m.e) := by
  unfold textKindMem entryToTextFmt
  dsimp only
  by_cases h1 : m.e.eType = tRRSET
  · simp only [if_pos h1]
    exact ⟨_, hm.self.fmt ((fmt_textRrset hu hm gmtime L w unixDates (hc.name (.inl h1)) (hc.bailiwick h1)).bind
      fun _ => Fmt.pure false), agrees_rrset gmtime L w unixDates hw ht⟩
  simp only [if_neg h1]
  by_cases h2 : m.e.eType = tRDATA
  · simp only [if_pos h2]
    refine ⟨_, hm.self.fmt (fmt_textRdata hu hm w (hc.name (.inr (.inl h2)))), ?_⟩
    unfold textRdata
    generalize m.e.rdatas = ds
    match ds with
    | [] => exact ⟨_, rfl⟩
    | _ :: _ :: _ => exact ⟨_, rfl⟩
    | [d] =>
      cases hd : w.domainToStr m.e.name with
      | fail => exact absurd hd (hw _)
      | fault f => exact rfl
      | ok name =>
        refine ⟨?_, recordText_last _ _ _ _ _⟩
        dsimp only
        rw [Out.ok_bind, recordBytes_eq]
        decide
  simp only [if_neg h2]
  by_cases h3 : m.e.eType = tRRSET_NAME_FWD
  · simp only [if_pos h3]
    refine ⟨_, hm.self.fmt ((fmt_textIndex hu hm w _ (hc.name (.inr (.inr (.inl h3))))).bind fun _ => Fmt.pure false), ?_⟩
    unfold textIndex
    cases hd : w.domainToStr m.e.name with
    | fail => exact absurd hd (hw _)
    | fault f => exact rfl
    | ok name => exact ⟨rfl, last_append (by decide) (by decide)⟩
  simp only [if_neg h3]
  by_cases h4 : m.e.eType = tRDATA_NAME_REV
  · simp only [if_pos h4]
    refine ⟨_, hm.self.fmt ((fmt_textIndex hu hm w _ (hc.name (.inr (.inr (.inr h4))))).bind fun _ => Fmt.pure false), ?_⟩
    unfold textIndex
    cases hd : w.domainToStr m.e.name with
    | fail => exact absurd hd (hw _)
    | fault f => exact rfl
    | ok name => exact ⟨rfl, last_append (by decide) (by decide)⟩
  simp only [if_neg h4]
  by_cases h5 : m.e.eType = tTIME_RANGE
  · simp only [if_pos h5]
    refine ⟨_, hm.self.fmt ((hu.text _).bind fun _ => Fmt.pure false), ?_⟩
    unfold textTimes
    dsimp only
    generalize hx : timeText gmtime L unixDates _ m.e.timeFirst = x
    cases x with
    | fail => exact absurd hx (ht _ _)
    | fault f => exact rfl
    | ok b =>
      rw [Out.ok_bind]
      generalize hx : timeText gmtime L unixDates _ m.e.timeLast = x
      cases x with
      | fail => exact absurd hx (ht _ _)
      | fault f => exact rfl
      | ok b => exact ⟨rfl, last_append (by decide) (by decide)⟩
  simp only [if_neg h5]
  by_cases h6 : m.e.eType = tSOURCE_INFO
  · simp only [if_pos h6]
    obtain ⟨hs, he⟩ := hc.source h6
    obtain ⟨s, he⟩ := Option.isSome_iff_exists.1 he
    refine ⟨_, hm.self.fmt ((fmt_textSource hu hm he hs).bind fun _ => Fmt.pure false), ?_⟩
    unfold textSource
    rw [he]
    refine ⟨?_, last_append (by decide) (by decide)⟩
    rw [addCstr_of (last_append (by decide) (by decide))]
    rfl
  simp only [if_neg h6]
  by_cases h7 : m.e.eType = tVERSION
  · simp only [if_pos h7]
    refine ⟨_, hm.self.fmt ((hu.text _).bind fun _ => Fmt.pure false), rfl, ?_⟩
    refine last_append ?_ (by simp)
    exact last_append (by decide) (by decide)
  simp only [if_neg h7]
  exact ⟨_, hm.self.fmt (Fmt.pure false), rfl, by decide⟩

/-! ## The end -/

theorem filter_apart {l : List (Nat × Bytes)} {p : Nat} (h : p ∉ l.map Prod.fst) : l.filter (fun b => b.1 ≠ p) = l := by
  rw [List.filter_eq_self]
  intro b hb
  simp only [ne_eq, decide_not, Bool.not_eq_true', decide_eq_false_iff_not]
  intro e
  exact h (List.mem_map.2 ⟨b, hb, e⟩)

/-- The blocks of a buffer are freed. -/
theorem destroy_eq {l : List (Nat × Bytes)} {x y : Bytes} {n s a : Nat} (hs : s ∉ l.map Prod.fst) (ha : a ∉ l.map Prod.fst)
    (hne : s ≠ a) : vecDestroyMem (some ⟨s, a⟩) ⟨n, (a, x) :: (s, y) :: l⟩ = .ok ((), ⟨n, l⟩) := by
  unfold vecDestroyMem
  dsimp only
  have e1 : mTouch s ⟨n, (a, x) :: (s, y) :: l⟩ = .ok ((), ⟨n, (a, x) :: (s, y) :: l⟩) := by
    unfold mTouch mLoad
    rw [mem_bind_eq]
    simp only [List.lookup_cons, beq_eq_false_iff_ne.2 hne, beq_self_eq_true]
    rfl
  have e2 : mFree (some a) ⟨n, (a, x) :: (s, y) :: l⟩ = .ok ((), ⟨n, (s, y) :: l⟩) := by
    unfold mFree
    simp only [List.map_cons, List.mem_cons, true_or, if_true]
    rw [List.filter_cons_of_neg (by simp), List.filter_cons_of_pos (by simpa using hne), filter_apart ha]
  have e3 : mFree (some s) ⟨n, (s, y) :: l⟩ = .ok ((), ⟨n, l⟩) := by
    unfold mFree
    simp only [List.map_cons, List.mem_cons, true_or, if_true]
    rw [List.filter_cons_of_neg (by simp), filter_apart hs]
  rw [mem_bind_eq, e1]
  dsimp only
  rw [mem_bind_eq, e2]
  exact e3

theorem string_eq {l : List (Nat × Bytes)} {b : Bytes} {n s a : Nat} (hs : s ∉ l.map Prod.fst) (ha : a ∉ l.map Prod.fst)
    (hne : s ≠ a) (hn : ∀ y ∈ l, y.1 < n) (hsn : s < n) (han : a < n) :
    ubufStringMem ⟨s, a⟩ ⟨n, (a, b) :: (s, []) :: l⟩ = .ok (a, ⟨n + 1, (a, addNul b) :: l⟩) := by
  have hu : Framed [] ((s, []) :: l) ⟨s, a⟩ :=
    ⟨by simp, by simpa using ⟨fun e => hne e.symm, by simpa using ha⟩, by simp, hne⟩
  unfold ubufStringMem
  have e1 : ubufTextMem ⟨s, a⟩ (fun b => .ok (addNul b)) ⟨n, (a, b) :: (s, []) :: l⟩ =
      .ok ((), ⟨n, (a, addNul b) :: (s, []) :: l⟩) := by
    unfold ubufTextMem ubufMem
    rw [mem_bind_eq]
    erw [touch_during (u := ⟨s, a⟩) hu.apart hu.self n b]
    dsimp only
    rw [mem_bind_eq, load_during hu n b]
    dsimp only
    rw [mem_bind_eq]
    show (mStore a (addNul b) >>= fun _ => (Pure.pure () : Mem Unit)) _ = _
    rw [mem_bind_eq, store_during hu]
    rfl
  have e2 : ubufDetachMem ⟨s, a⟩ ⟨n, (a, addNul b) :: (s, []) :: l⟩ =
      .ok ((a, ⟨s, n⟩), ⟨n + 1, (n, []) :: (a, addNul b) :: (s, []) :: l⟩) := by
    unfold ubufDetachMem
    rw [mem_bind_eq]
    erw [touch_during (u := ⟨s, a⟩) hu.apart hu.self n (addNul b)]
    rfl
  have hsa : s ∉ ((a, addNul b) :: l).map Prod.fst := by simpa using ⟨hne, by simpa using hs⟩
  rw [mem_bind_eq, e1]
  dsimp only
  rw [mem_bind_eq, e2]
  dsimp only
  rw [mem_bind_eq]
  unfold vecDestroyMem
  dsimp only
  have e3 : mTouch s ⟨n + 1, (n, []) :: (a, addNul b) :: (s, []) :: l⟩ =
      .ok ((), ⟨n + 1, (n, []) :: (a, addNul b) :: (s, []) :: l⟩) := by
    unfold mTouch mLoad
    rw [mem_bind_eq]
    simp only [List.lookup_cons, beq_eq_false_iff_ne.2 hne, beq_eq_false_iff_ne.2 (Nat.ne_of_lt hsn), beq_self_eq_true]
    rfl
  have e4 : mFree (some n) ⟨n + 1, (n, []) :: (a, addNul b) :: (s, []) :: l⟩ =
      .ok ((), ⟨n + 1, (a, addNul b) :: (s, []) :: l⟩) := by
    unfold mFree
    simp only [List.map_cons, List.mem_cons, true_or, if_true]
    rw [List.filter_cons_of_neg (by simp), filter_apart]
    intro hm
    obtain ⟨y, hy, e⟩ := List.mem_map.1 hm
    simp only [List.mem_cons] at hy
    rcases hy with rfl | rfl | hy
    · simp only at e; omega
    · simp only at e; omega
    · have := hn y hy
      omega
  have e5 : mFree (some s) ⟨n + 1, (a, addNul b) :: (s, []) :: l⟩ = .ok ((), ⟨n + 1, (a, addNul b) :: l⟩) := by
    unfold mFree
    simp only [List.map_cons, List.mem_cons, true_or, or_true, if_true]
    rw [List.filter_cons_of_pos (by simpa using fun e => hne e.symm), List.filter_cons_of_neg (by simp), filter_apart hs]
  rw [mem_bind_eq, e3]
  dsimp only
  rw [mem_bind_eq, e4]
  dsimp only
  rw [e5]
  rfl

/-- The frame of a new buffer. -/
theorem framed_new {l : List (Nat × Bytes)} {n : Nat} (hn : ∀ y ∈ l, y.1 < n) :
    n ∉ l.map Prod.fst ∧ n + 1 ∉ l.map Prod.fst ∧ Framed [] ((n, []) :: l) ⟨n, n + 1⟩ ∧
      ∀ y ∈ [] ++ ((n, []) :: l), y.1 < n + 2 := by
  have hself : n ∉ l.map Prod.fst := fun hm => by
    obtain ⟨y, hy, e⟩ := List.mem_map.1 hm
    have := hn y hy
    omega
  have harr : n + 1 ∉ l.map Prod.fst := fun hm => by
    obtain ⟨y, hy, e⟩ := List.mem_map.1 hm
    have := hn y hy
    omega
  refine ⟨hself, harr, ⟨by simp, by simpa using harr, by simp, by simp⟩, ?_⟩
  intro y hy
  simp only [List.nil_append, List.mem_cons] at hy
  rcases hy with rfl | hy
  · simp
  · have := hn y hy
    omega

/-- A buffer is made, filled, and turned into a string. -/
theorem makes_string {l : List (Nat × Bytes)} {x : VecMem → Mem Unit} {f : Bytes → Out (Bytes × Unit)}
    (hx : ∀ u post, Framed [] post u → Fmt [] [] post u (x u) f) :
    Makes l (vecInitMem >>= fun u => x u >>= fun _ => ubufStringMem u) (f [] >>= fun r => .ok (addNul r.1)) := by
  intro n hn
  obtain ⟨hself, harr, hu, hb0⟩ := framed_new hn
  have h1 := hx ⟨n, n + 1⟩ ((n, []) :: l) hu (n + 2) [] hb0 (by simp)
  have e0 : vecInitMem ⟨n, l⟩ = .ok (⟨n, n + 1⟩, during (n + 2) [] ((n, []) :: l) (n + 1) []) := rfl
  rw [mem_bind_eq, e0]
  dsimp only
  rw [mem_bind_eq]
  cases hf : f [] with
  | fail => rw [hf] at h1; rw [h1]; exact rfl
  | fault t => rw [hf] at h1; rw [h1]; exact rfl
  | ok r =>
    rw [hf] at h1
    obtain ⟨n1, hle, hb, e1⟩ := h1
    rw [e1]
    dsimp only
    refine ⟨n + 1, n1 + 1, by omega, by omega, ?_⟩
    exact string_eq hself harr (by omega) (fun y hy => hb y (by simp [hy])) (by omega) (by omega)

/-- What an output function gives: a new string with the text, or NULL, and the other blocks are as before. -/
def Renders (l : List (Nat × Bytes)) (x : Mem (Option Nat)) (o : Out Bytes) : Prop :=
  ∀ n, (∀ y ∈ l, y.1 < n) →
    match o with
    | .ok t => ∃ k n', n ≤ k ∧ k < n' ∧ x ⟨n, l⟩ = .ok (some k, ⟨n', (k, t ++ [0]) :: l⟩)
    | .fail => ∃ n', n ≤ n' ∧ x ⟨n, l⟩ = .ok (none, ⟨n', l⟩)
    | .fault t => x ⟨n, l⟩ = .fault t

theorem renders_of {l : List (Nat × Bytes)} {x : VecMem → Mem Bool} {o : Out Bytes}
    (hx : ∀ n, (∀ y ∈ l, y.1 < n) → ∃ f, Fmt [] [] ((n, []) :: l) ⟨n, n + 1⟩ (x ⟨n, n + 1⟩) f ∧ Agrees (f []) o) :
    Renders l (vecInitMem >>= fun u => x u >>= fun out => ubufFinishMem u out) o := by
  intro n hn
  obtain ⟨hself, harr, hu, hb0⟩ := framed_new hn
  obtain ⟨f, hf, ha⟩ := hx n hn
  have h1 := hf (n + 2) [] hb0 (by simp)
  have e0 : vecInitMem ⟨n, l⟩ = .ok (⟨n, n + 1⟩, during (n + 2) [] ((n, []) :: l) (n + 1) []) := rfl
  rw [mem_bind_eq, e0]
  dsimp only
  rw [mem_bind_eq]
  cases o with
  | ok t =>
    obtain ⟨ha, hz⟩ := ha
    rw [ha] at h1
    obtain ⟨n1, hle, hb, e1⟩ := h1
    rw [e1]
    dsimp only
    refine ⟨n + 1, n1 + 1, by omega, by omega, ?_⟩
    unfold ubufFinishMem
    rw [if_neg (by simp), mem_bind_eq]
    erw [string_eq hself harr (by omega) (fun y hy => hb y (by simp [hy])) (by omega) (by omega)]
    have : addNul t = t ++ [0] := by
      unfold addNul
      rw [if_neg hz]
    rw [this]
    rfl
  | fail =>
    obtain ⟨b, ha⟩ := ha
    rw [ha] at h1
    obtain ⟨n1, hle, hb, e1⟩ := h1
    rw [e1]
    dsimp only
    refine ⟨n1, by omega, ?_⟩
    unfold ubufFinishMem
    rw [if_pos rfl, mem_bind_eq]
    erw [destroy_eq hself harr (by omega)]
    rfl
  | fault t =>
    rw [show f [] = .fault t from ha] at h1
    rw [h1]

/-! ## JSON -/

theorem Framed.jbuf (h : Framed pre post u) (started : Nat) (f : JBuf → Out JBuf) :
    Fmt pre pre post u (jbufMem u started f) fun b => f ⟨b, started⟩ >>= fun r => .ok (r.u, r.started) := h.fmt _

theorem jsonStrAppend_nul (b s : Bytes) : jsonStrAppend b (s ++ [0]) = jsonStrAppend b s := by
  unfold jsonStrAppend
  rw [cstr_nul]

theorem jsonStrAppend_addNul (b s : Bytes) : jsonStrAppend b (addNul s) = jsonStrAppend b s := by
  unfold addNul
  split
  · rfl
  · exact jsonStrAppend_nul b s

theorem fmt_jsonData {v : VecMem} {p : Nat} {d : Bytes} (hu : Framed pre post u) (w : Wdns) (rrtype : Nat)
    (hv : VecPresent pre post u v) (hp : Sees pre post u p d) :
    Fmt pre pre post u (jsonDataMem w u v rrtype p) fun b =>
      .ok (jsonStrAppend b (w.rdataToStr d (rrtype % 65536)), ()) := by
  unfold jsonDataMem
  refine (Fmt.make (makes_rdataStr w rrtype hv hp) (g := fun s b => .ok (jsonStrAppend b s, ())) fun k s hk ha => ?_).congr
    fun b => ?_
  · exact Fmt.loadNew (((hu.push ha).text _).bind fun _ => Fmt.free hk ha) ha
  · rw [Out.ok_bind, jsonStrAppend_nul]

theorem fmt_rdatas (hu : Framed pre post u) (w : Wdns) (rrtype total : Nat) {v : VecMem}
    (hv : VecPresent pre post u v) (ps : List Nat) (ds : List Bytes) (i : Nat) (hl : ps.length = ds.length)
    (h : ∀ b ∈ ps.zip ds, Sees pre post u b.1 b.2) :
    Fmt pre pre post u (rdatasMem w u v rrtype total i ps) fun b => .ok (rdatasLoop w rrtype total b i ds, ()) := by
  induction ps generalizing ds i with
  | nil =>
    cases ds with
    | nil => exact Fmt.pure ()
    | cons => cases hl
  | cons p ps ih =>
    cases ds with
    | nil => cases hl
    | cons d ds =>
      unfold rdatasMem
      refine ((fmt_jsonData hu w rrtype hv (h (p, d) (by simp))).bind fun _ => (hu.text _).bind fun _ =>
        ih ds (i + 1) (by simpa using hl) (fun b hb => h b (by simp [hb]))).congr fun b => rfl

/-- The text of raw data. -/
def rawBytes (d : Bytes) (tail : Option Nat) : Out Bytes :=
  match tail with
  | none => .ok (fmtHexStr [] d)
  | some rrtype =>
    if (varintEncode32 rrtype).length > 3 then .fault .oobWrite
    else .ok (fmtHexStr (fmtHexStr [] d) (varintEncode32 rrtype))

theorem makes_rawStr {v : VecMem} {p : Nat} {d : Bytes} (tail : Option Nat) (hv : VecPresent pre post u v)
    (hp : Sees pre post u p d) (b : Bytes) :
    Makes (pre ++ (u.arr, b) :: post) (rawStrMem v tail p) (rawBytes d tail >>= fun s => .ok (addNul s)) := by
  have hs : Makes (pre ++ (u.arr, b) :: post) (vecInitMem >>= fun r => rawTextMem r d tail >>= fun _ => ubufStringMem r)
      (rawBytes d tail >>= fun s => .ok (addNul s)) := by
    cases tail with
    | none =>
      exact makes_string (f := fun b => .ok (fmtHexStr b d, ())) fun r post hr =>
        ((hr.text _).bind fun _ => Fmt.pure ()).congr fun b => rfl
    | some rrtype =>
      have := makes_string (l := pre ++ (u.arr, b) :: post) (x := fun r => rawTextMem r d (some rrtype))
        (f := fun b => (if (varintEncode32 rrtype).length > 3 then Out.fault .oobWrite
          else .ok (fmtHexStr (fmtHexStr b d) (varintEncode32 rrtype))) >>= fun b => .ok (b, ())) fun r post hr =>
        ((hr.text _).bind fun _ => hr.text _).congr fun b => rfl
      rw [out_bind_assoc] at this
      exact this
  intro n hn
  have h1 := hs n hn
  have e : rawStrMem v tail p ⟨n, pre ++ (u.arr, b) :: post⟩ =
      (vecInitMem >>= fun r => rawTextMem r d tail >>= fun _ => ubufStringMem r) ⟨n, pre ++ (u.arr, b) :: post⟩ := by
    unfold rawStrMem
    rw [mem_bind_eq]
    erw [hv.touch n b]
    dsimp only
    rw [mem_bind_eq, hp n b]
    rfl
  rw [e]
  exact h1

theorem fmt_jsonRaw {v : VecMem} {p : Nat} {d : Bytes} (hu : Framed pre post u) (tail : Option Nat)
    (hv : VecPresent pre post u v) (hp : Sees pre post u p d) :
    Fmt pre pre post u (jsonRawMem u v tail p) fun b => rawBytes d tail >>= fun s => .ok (jsonStrAppend b s, ()) := by
  unfold jsonRawMem
  refine (Fmt.make (makes_rawStr tail hv hp) (g := fun s b => .ok (jsonStrAppend b s, ())) fun k s hk ha => ?_).congr
    fun b => ?_
  · exact Fmt.loadNew (((hu.push ha).text _).bind fun _ => Fmt.free hk ha) ha
  · rw [out_bind_assoc]
    simp only [Out.ok_bind, jsonStrAppend_addNul]

theorem fmt_raws (hu : Framed pre post u) (rrtype total : Nat) {v : VecMem}
    (hv : VecPresent pre post u v) (ps : List Nat) (ds : List Bytes) (i : Nat) (hl : ps.length = ds.length)
    (h : ∀ b ∈ ps.zip ds, Sees pre post u b.1 b.2) :
    Fmt pre pre post u (rawsMem u v rrtype total i ps) fun b => rawLoop rrtype total b i ds >>= fun b => .ok (b, ()) := by
  induction ps generalizing ds i with
  | nil =>
    cases ds with
    | nil => exact Fmt.pure ()
    | cons => cases hl
  | cons p ps ih =>
    cases ds with
    | nil => cases hl
    | cons d ds =>
      unfold rawsMem
      refine ((fmt_jsonRaw hu (some rrtype) hv (h (p, d) (by simp))).bind fun _ => (hu.text _).bind fun _ =>
        ih ds (i + 1) (by simpa using hl) (fun b hb => h b (by simp [hb]))).congr fun b => ?_
      have e : rawLoop rrtype total b i (d :: ds) = if (varintEncode32 rrtype).length > 3 then .fault .oobWrite
        else rawLoop rrtype total (arrDelimit (jsonStrAppend b (fmtHexStr (fmtHexStr [] d) (varintEncode32 rrtype))) i total)
          (i + 1) ds := rfl
      rw [e]
      unfold rawBytes
      dsimp only
      split <;> rfl

theorem fmt_jsonRrset {m : EntryMem} (hu : Framed pre post u) (hm : Seen pre post u m) (w : Wdns) (f : Formatter)
    (started : Nat) (hb : m.bailiwick.isSome) :
    Fmt pre pre post u (jsonRrsetMem w f m u started) fun b =>
      jsonRrset w f m.e ⟨b, started⟩ >>= fun r => .ok (r.u, ()) := by
  unfold jsonRrsetMem
  have hr := fun (i : Nat) => fmt_rdatas hu w m.e.rrtype m.rdatas.length hm.vec m.rdatas m.e.rdatas i hm.length hm.rdatas
  have hw := fun (i : Nat) => fmt_raws hu m.e.rrtype m.rdatas.length hm.vec m.rdatas m.e.rdatas i hm.length hm.rdatas
  unfold jsonRrset
  rw [hm.length] at hr hw ⊢
  refine Fmt.ptr hb hm.bailiwick ?_
  by_cases ha : f.addRawRdata = true
  · simp only [if_pos ha]
    refine ((hu.jbuf _ _).bind fun _ => hm.vec.fmt ((hr 0).bind fun _ => (hu.add _).bind fun _ => (hu.jbuf _ _).bind fun _ =>
      (hw 0).bind fun _ => hu.add _)).congr fun b => ?_
    simp only [out_bind_assoc, Out.ok_bind, JBuf.decl, JBuf.with]
  · simp only [if_neg ha]
    refine ((hu.jbuf _ _).bind fun _ => hm.vec.fmt ((hr 0).bind fun _ => (hu.add _).bind fun _ => Fmt.pure ())).congr
      fun b => ?_
    simp only [out_bind_assoc, Out.ok_bind, JBuf.decl, JBuf.with]

theorem fmt_jsonRdata {m : EntryMem} (hu : Framed pre post u) (hm : Seen pre post u m) (w : Wdns) (f : Formatter)
    (started : Nat) :
    Fmt pre pre post u (jsonRdataMem w f m u started) fun b =>
      match m.e.rdatas with
      | [_] => jsonRdata w f m.e ⟨b, started⟩ >>= fun r => .ok (r.u, false)
      | _ => .ok (b, true) := by
  have hl := hm.length
  have hr := hm.rdatas
  unfold jsonRdataMem jsonRdata
  refine hm.vec.fmt ?_
  revert hl hr
  generalize m.rdatas = ps
  generalize m.e.rdatas = ds
  intro hl hr
  match ps, ds, hl with
  | [], [], _ => exact Fmt.pure true
  | [p], [d], _ =>
    have hp := hr (p, d) (by simp)
    by_cases ha : f.addRawRdata = true
    · simp only [if_pos ha]
      refine ((hu.jbuf _ _).bind fun _ => (fmt_jsonData hu w m.e.rrtype hm.vec hp).bind fun _ => (hu.text _).bind fun _ =>
        (hu.jbuf _ _).bind fun _ => (fmt_jsonRaw hu none hm.vec hp).bind fun _ => (hu.text _).bind fun _ =>
        Fmt.pure false).congr fun b => rfl
    · simp only [if_neg ha]
      refine ((hu.jbuf _ _).bind fun _ => (fmt_jsonData hu w m.e.rrtype hm.vec hp).bind fun _ => (hu.text _).bind fun _ =>
        Fmt.pure false).congr fun b => rfl
  | p :: q :: ps, d :: d' :: ds, _ => exact Fmt.pure true

theorem fmt_jsonIndex {m : EntryMem} (hu : Framed pre post u) (hm : Seen pre post u m) (w : Wdns) (member : String)
    (started : Nat) (hn : m.name.isSome) :
    Fmt pre pre post u (jsonIndexMem w member m u started) fun b =>
      jsonIndex w member m.e ⟨b, started⟩ >>= fun r => .ok (r.u, r.started) := by
  unfold jsonIndexMem
  exact Fmt.ptr hn hm.name (Fmt.touchIf hm.map (hu.jbuf _ _))

theorem fmt_jsonSource {m : EntryMem} (hu : Framed pre post u) (hm : Seen pre post u m) (started : Nat)
    (hv : m.sourceInfo.isSome) :
    Fmt pre pre post u (jsonSourceMem m u started) fun b =>
      jsonSource m.e ⟨b, started⟩ >>= fun r => .ok (r.u, r.started) := by
  unfold jsonSourceMem
  obtain ⟨v, hv⟩ := Option.isSome_iff_exists.1 hv
  rw [hv]
  exact (hm.source v hv).fmt (hu.jbuf _ _)

theorem fmt_jsonCommon {m : EntryMem} (hu : Framed pre post u) (hm : Seen pre post u m) (numbuf : Bytes)
    (gmtime : Int → Option Tm) (w : Wdns) (f : Formatter) (hn : m.name.isSome) :
    Fmt pre pre post u (jsonCommonMem numbuf gmtime w f m u) fun b =>
      jsonCommon numbuf gmtime w f m.e ⟨b, 0⟩ >>= fun r => .ok (r.u, r.started) := by
  unfold jsonCommonMem
  exact Fmt.ptr hn hm.name (hu.jbuf _ _)

/-- Members appended, and whether the function goes to `out`. -/
def jsonKind (numbuf : Bytes) (gmtime : Int → Option Tm) (w : Wdns) (f : Formatter) (e : Entry) (b : JBuf) : Out JBuf :=
  if e.eType = tRRSET then jsonRrset w f e b
  else if e.eType = tRDATA then jsonRdata w f e b
  else if e.eType = tRRSET_NAME_FWD then jsonIndex w "rrset_name" e b
  else if e.eType = tRDATA_NAME_REV then jsonIndex w "rdata_name" e b
  else if e.eType = tTIME_RANGE then jsonTimes numbuf gmtime f e b
  else if e.eType = tSOURCE_INFO then jsonSource e b
  else if e.eType = tVERSION then jsonVersion numbuf e b
  else .ok b

/-- The record has other than one data. -/
def Unrecorded (e : Entry) : Prop := e.eType = tRDATA ∧ e.rdatas.length ≠ 1

instance (e : Entry) : Decidable (Unrecorded e) := inferInstanceAs (Decidable (_ ∧ _))

theorem fmt_jsonKind {m : EntryMem} (hu : Framed pre post u) (hm : Seen pre post u m) (hc : Complete m) (numbuf : Bytes)
    (gmtime : Int → Option Tm) (w : Wdns) (f : Formatter) (started : Nat) :
    Fmt pre pre post u (jsonKindMem numbuf gmtime w f m u started) fun b =>
      if Unrecorded m.e then .ok (b, true)
      else jsonKind numbuf gmtime w f m.e ⟨b, started⟩ >>= fun r => .ok (r.u, false) := by
  have hno : m.e.eType ≠ tRDATA → ¬ Unrecorded m.e := fun h h' => h h'.1
  unfold jsonKindMem jsonKind
  by_cases h1 : m.e.eType = tRRSET
  · simp only [if_pos h1, if_neg (hno (by rw [h1]; decide))]
    refine ((fmt_jsonRrset hu hm w f started (hc.bailiwick h1)).bind fun _ => Fmt.pure false).congr fun b => ?_
    rw [out_bind_assoc]; rfl
  simp only [if_neg h1]
  by_cases h2 : m.e.eType = tRDATA
  · simp only [if_pos h2]
    refine (fmt_jsonRdata hu hm w f started).congr fun b => ?_
    by_cases hx : Unrecorded m.e
    · rw [if_pos hx]
      split
      · next d hd => exact absurd (by rw [hd]; rfl) hx.2
      · rfl
    · rw [if_neg hx]
      split
      · rfl
      · next hd =>
        refine absurd ⟨h2, fun hl => ?_⟩ hx
        obtain ⟨d, hd'⟩ := List.length_eq_one_iff.1 hl
        exact hd d hd'
  simp only [if_neg h2, if_neg (hno h2)]
  by_cases h3 : m.e.eType = tRRSET_NAME_FWD
  · simp only [if_pos h3]
    refine ((fmt_jsonIndex hu hm w _ started (hc.name (.inr (.inr (.inl h3))))).bind fun _ => Fmt.pure false).congr fun b => ?_
    rw [out_bind_assoc]; rfl
  simp only [if_neg h3]
  by_cases h4 : m.e.eType = tRDATA_NAME_REV
  · simp only [if_pos h4]
    refine ((fmt_jsonIndex hu hm w _ started (hc.name (.inr (.inr (.inr h4))))).bind fun _ => Fmt.pure false).congr fun b => ?_
    rw [out_bind_assoc]; rfl
  simp only [if_neg h4]
  by_cases h5 : m.e.eType = tTIME_RANGE
  · simp only [if_pos h5]
    refine ((hu.jbuf started _).bind fun _ => Fmt.pure false).congr fun b => ?_
    rw [out_bind_assoc]; rfl
  simp only [if_neg h5]
  by_cases h6 : m.e.eType = tSOURCE_INFO
  · simp only [if_pos h6]
    refine ((fmt_jsonSource hu hm started (hc.source h6).1).bind fun _ => Fmt.pure false).congr fun b => ?_
    rw [out_bind_assoc]; rfl
  simp only [if_neg h6]
  by_cases h7 : m.e.eType = tVERSION
  · simp only [if_pos h7]
    refine ((hu.jbuf started _).bind fun _ => Fmt.pure false).congr fun b => ?_
    rw [out_bind_assoc]; rfl
  simp only [if_neg h7]
  exact (Fmt.pure false).congr fun b => rfl

/-- The whole object in the buffer. -/
def jsonBody (numbuf : Bytes) (gmtime : Int → Option Tm) (w : Wdns) (f : Formatter) (e : Entry) (b : Bytes) :
    Out (Bytes × Bool) :=
  (if e.eType = tRRSET ∨ e.eType = tRDATA then jsonCommon numbuf gmtime w f e ⟨b ++ [123], 0⟩ else .ok ⟨b ++ [123], 0⟩) >>=
    fun r => if Unrecorded e then .ok (r.u, true)
      else jsonKind numbuf gmtime w f e r >>= fun r => .ok (r.u ++ [125], false)

theorem fmt_jsonBody {m : EntryMem} (hu : Framed pre post u) (hm : Seen pre post u m) (hc : Complete m) (numbuf : Bytes)
    (gmtime : Int → Option Tm) (w : Wdns) (f : Formatter) :
    Fmt pre pre post u (jsonBodyMem numbuf gmtime w f m u) (jsonBody numbuf gmtime w f m.e) := by
  have hend : ∀ started : Nat, Fmt pre pre post u (jsonKindMem numbuf gmtime w f m u started >>= fun out =>
      if out = true then pure true else ubufAddMem u [125] >>= fun _ => pure false) fun b =>
      if Unrecorded m.e then .ok (b, true)
      else jsonKind numbuf gmtime w f m.e ⟨b, started⟩ >>= fun r => .ok (r.u ++ [125], false) := by
    intro started
    refine ((fmt_jsonKind hu hm hc numbuf gmtime w f started).bind (g := fun out b =>
      if out = true then .ok (b, true) else .ok (b ++ [125], false)) fun out => ?_).congr fun b => ?_
    · cases out with
      | true => exact Fmt.pure true
      | false => exact ((hu.add _).bind fun _ => Fmt.pure false).congr fun b => rfl
    · split
      · rfl
      · rw [out_bind_assoc]; rfl
  unfold jsonBodyMem
  dsimp only
  by_cases h : m.e.eType = tRRSET ∨ m.e.eType = tRDATA
  · simp only [if_pos h]
    have hn := hc.name (h.imp id .inl)
    refine ((hu.add [123]).bind fun _ => hm.self.fmt ((fmt_jsonCommon hu hm numbuf gmtime w f hn).bind fun st => hend st)).congr
      fun b => ?_
    unfold jsonBody
    rw [if_pos h, Out.ok_bind, out_bind_assoc]
    rfl
  · simp only [if_neg h]
    refine ((hu.add [123]).bind fun _ => hm.self.fmt (Fmt.read (x := pure 0) (a := (0 : Nat)) (fun _ _ => rfl)
      (hend 0))).congr fun b => ?_
    unfold jsonBody
    rw [if_neg h]
    rfl

theorem entryToJsonFmt_eq (numbuf : Bytes) (gmtime : Int → Option Tm) (w : Wdns) (f : Formatter) (e : Entry) :
    entryToJsonFmt numbuf gmtime w f e =
      (if e.eType = tRRSET ∨ e.eType = tRDATA then jsonCommon numbuf gmtime w f e ⟨[123], 0⟩ else .ok ⟨[123], 0⟩) >>=
        fun b => jsonKind numbuf gmtime w f e b >>= fun b => .ok (b.u ++ [125]) := by
  unfold entryToJsonFmt
  dsimp only
  have hk : ∀ b, (jsonKind numbuf gmtime w f e b >>= fun b => Out.ok (b.u ++ [125])) =
      (if e.eType = tRRSET then jsonRrset w f e b >>= fun b => .ok (b.u ++ [125])
        else if e.eType = tRDATA then jsonRdata w f e b >>= fun b => .ok (b.u ++ [125])
        else if e.eType = tRRSET_NAME_FWD then jsonIndex w "rrset_name" e b >>= fun b => .ok (b.u ++ [125])
        else if e.eType = tRDATA_NAME_REV then jsonIndex w "rdata_name" e b >>= fun b => .ok (b.u ++ [125])
        else if e.eType = tTIME_RANGE then jsonTimes numbuf gmtime f e b >>= fun b => .ok (b.u ++ [125])
        else if e.eType = tSOURCE_INFO then jsonSource e b >>= fun b => .ok (b.u ++ [125])
        else if e.eType = tVERSION then jsonVersion numbuf e b >>= fun b => .ok (b.u ++ [125])
        else .ok b >>= fun b => .ok (b.u ++ [125])) := by
    intro b
    unfold jsonKind
    repeat' split
    all_goals rfl
  simp only [hk]
  split <;> rfl

theorem agrees_json {numbuf : Bytes} {gmtime : Int → Option Tm} {w : Wdns} {f : Formatter} {e : Entry}
    (hcom : ∀ b, jsonCommon numbuf gmtime w f e b ≠ .fail) (hkind : ∀ b, jsonKind numbuf gmtime w f e b = .fail → Unrecorded e) :
    Agrees (jsonBody numbuf gmtime w f e []) (entryToJsonFmt numbuf gmtime w f e) := by
  rw [entryToJsonFmt_eq]
  unfold jsonBody
  rw [List.nil_append]
  generalize hx : (if e.eType = tRRSET ∨ e.eType = tRDATA then jsonCommon numbuf gmtime w f e ⟨[123], 0⟩
    else Out.ok ⟨[123], 0⟩) = x
  cases x with
  | fail =>
    split at hx
    · exact absurd hx (hcom _)
    · cases hx
  | fault t => exact rfl
  | ok b =>
    rw [Out.ok_bind, Out.ok_bind]
    by_cases hu : Unrecorded e
    · have : jsonKind numbuf gmtime w f e b = .fail := by
        unfold jsonKind
        rw [if_neg (by rw [hu.1]; decide), if_pos hu.1]
        unfold jsonRdata
        split
        · next d hd => exact absurd (by rw [hd]; rfl) hu.2
        · rfl
      rw [if_pos hu, this]
      exact ⟨_, rfl⟩
    · rw [if_neg hu]
      cases hk : jsonKind numbuf gmtime w f e b with
      | fail => exact absurd (hkind b hk) hu
      | fault t => exact rfl
      | ok r => exact ⟨rfl, last_append (by decide) (by decide)⟩

/-! ## No other failures -/

/-- A value, or a fault that is not a wrong use of the heap. -/
def Mild {α : Type} (x : Out α) : Prop := x ≠ .fail ∧ Tame x

theorem Mild.ok {α : Type} (a : α) : Mild (.ok a) := ⟨nofun, .ok a⟩

theorem Mild.bind {α β : Type} {x : Out α} {g : α → Out β} (hx : Mild x) (hg : ∀ a, Mild (g a)) : Mild (x >>= g) := by
  refine ⟨?_, hx.2.bind fun a => (hg a).2⟩
  cases x with
  | ok a => exact (hg a).1
  | fail => exact absurd rfl hx.1
  | fault t => nofun

theorem mild_write (buf : Bytes) (i : Nat) (v : UInt8) : Mild (store buf i v) := by
  unfold store
  split
  · exact .ok _
  · exact ⟨nofun, .oobWrite⟩

theorem mild_digits (n num : Nat) (buf : Bytes) : Mild (writeDigits n num buf) := by
  induction n generalizing num buf with
  | zero => exact .ok _
  | succ n ih => exact (mild_write _ _ _).bind fun _ => ih _ _

theorem mild_int (numbuf b : Bytes) (v : Nat) : Mild (appendJsonValueInt numbuf b v) := by
  unfold appendJsonValueInt vnumToStr
  exact Mild.bind ((mild_digits _ _ _).bind fun _ => (mild_write _ _ _).bind fun _ => .ok _) fun _ => .ok _

theorem mild_loop64 (off num ptr nd : Nat) (buf : Bytes) : Mild (uint64Loop off num ptr nd buf) := by
  induction ptr generalizing num nd buf with
  | zero => exact (mild_write _ _ _).bind fun _ => .ok _
  | succ ptr ih =>
    unfold uint64Loop
    refine (mild_write _ _ _).bind fun _ => ?_
    split
    · exact .ok _
    · exact ih _ _ _

theorem mild_field (num : Int) (off size : Nat) (sep : UInt8) (dst : Bytes) : Mild (rfcField num off size sep dst) := by
  unfold rfcField
  refine Mild.bind ?_ fun _ => mild_write _ _ _
  unfold myUint64ToStr
  split
  · exact ⟨nofun, .oobWrite⟩
  · exact ⟨nofun, .oobWrite⟩
  · exact (mild_write _ _ _).bind fun _ => mild_loop64 _ _ _ _ _

theorem mild_rfc (gmtime : Int → Option Tm) (v : Nat) : Mild (rfc3339Text gmtime v) := by
  unfold rfc3339Text
  split
  · exact ⟨nofun, .abort⟩
  · refine Mild.bind ?_ fun _ => .ok _
    exact (mild_field _ _ _ _ _).bind fun _ => (mild_field _ _ _ _ _).bind fun _ => (mild_field _ _ _ _ _).bind fun _ =>
      (mild_field _ _ _ _ _).bind fun _ => (mild_field _ _ _ _ _).bind fun _ => mild_field _ _ _ _ _

theorem mild_timeText (gmtime : Int → Option Tm) (L : Locale) (unixDates : Bool) (b : Bytes) (v : Nat) :
    Mild (timeText gmtime L unixDates b v) := by
  unfold timeText
  split
  · exact .ok _
  · exact (mild_rfc _ _).bind fun _ => .ok _

theorem mild_timeJson (numbuf : Bytes) (gmtime : Int → Option Tm) (f : Formatter) (b : Bytes) (v : Nat) :
    Mild (timeJson numbuf gmtime f b v) := by
  unfold timeJson
  split
  · exact mild_int _ _ _
  · exact (mild_rfc _ _).bind fun _ => .ok _

theorem mild_uint64 (L : Locale) (b : Bytes) (v : Nat) : Mild (fmtUint64 L b v) := by
  unfold fmtUint64
  dsimp only
  split
  · exact .ok _
  · exact ⟨nofun, .oobRead⟩

theorem mild_raws (rrtype total i : Nat) (b : Bytes) (ds : List Bytes) : Mild (rawLoop rrtype total b i ds) := by
  induction ds generalizing b i with
  | nil => exact .ok _
  | cons d ds ih =>
    unfold rawLoop
    dsimp only
    split
    · exact ⟨nofun, .oobWrite⟩
    · exact ih _ _

section libs
variable {w : Wdns} (hw : ∀ n, Mild (w.domainToStr n))
include hw

theorem mild_name (b n : Bytes) : Mild (nameJson w b n) := (hw n).bind fun _ => .ok _

theorem mild_common (numbuf : Bytes) (gmtime : Int → Option Tm) (f : Formatter) (e : Entry) (b : JBuf) :
    Mild (jsonCommon numbuf gmtime w f e b) := by
  unfold jsonCommon
  dsimp only
  exact Mild.bind (mild_int _ _ _) fun _ => Mild.bind (.ok _) fun _ => Mild.bind (mild_timeJson _ _ _ _ _) fun _ =>
    Mild.bind (.ok _) fun _ => Mild.bind (mild_timeJson _ _ _ _ _) fun _ => Mild.bind (.ok _) fun _ =>
    Mild.bind (mild_name hw _ _) fun _ => Mild.bind (.ok _) fun _ => .ok _

theorem mild_kind (numbuf : Bytes) (gmtime : Int → Option Tm) (f : Formatter) (e : Entry) (b : JBuf)
    (hs : e.eType = tSOURCE_INFO → e.sourceInfo.isSome) (hu : ¬ Unrecorded e) :
    Mild (jsonKind numbuf gmtime w f e b) := by
  unfold jsonKind
  split
  · unfold jsonRrset
    dsimp only
    refine Mild.bind (mild_name hw _ _) fun _ => Mild.bind (.ok _) fun _ => ?_
    split
    · exact Mild.bind (mild_raws _ _ _ _ _) fun _ => Mild.bind (.ok _) fun _ => .ok _
    · exact .ok _
  split
  · next h =>
    unfold jsonRdata
    split
    · dsimp only
      split <;> exact .ok _
    · next hd =>
      refine absurd ⟨h, fun hl => ?_⟩ hu
      obtain ⟨d, hd'⟩ := List.length_eq_one_iff.1 hl
      exact hd d hd'
  split
  · exact Mild.bind (mild_name hw _ _) fun _ => Mild.bind (.ok _) fun _ => .ok _
  split
  · exact Mild.bind (mild_name hw _ _) fun _ => Mild.bind (.ok _) fun _ => .ok _
  split
  · exact Mild.bind (mild_timeJson _ _ _ _ _) fun _ => Mild.bind (.ok _) fun _ => Mild.bind (mild_timeJson _ _ _ _ _)
      fun _ => .ok _
  split
  · next h =>
    obtain ⟨s, hs⟩ := Option.isSome_iff_exists.1 (hs h)
    unfold jsonSource
    rw [hs]
    exact .ok _
  split
  · exact Mild.bind (mild_int _ _ _) fun _ => .ok _
  · exact .ok _

theorem tame_json (numbuf : Bytes) (gmtime : Int → Option Tm) (f : Formatter) (e : Entry)
    (hs : e.eType = tSOURCE_INFO → e.sourceInfo.isSome) : Tame (entryToJsonFmt numbuf gmtime w f e) := by
  rw [entryToJsonFmt_eq]
  refine Tame.bind ?_ fun b => Tame.bind ?_ fun _ => .ok _
  · split
    · exact (mild_common hw _ _ _ _ _).2
    · exact .ok _
  · by_cases hu : Unrecorded e
    · unfold jsonKind
      rw [if_neg (by rw [hu.1]; decide), if_pos hu.1]
      unfold jsonRdata
      split
      · next d hd => exact absurd (by rw [hd]; rfl) hu.2
      · exact .fail
    · exact (mild_kind hw numbuf gmtime f e b hs hu).2

theorem tame_text (gmtime : Int → Option Tm) (L : Locale) (unixDates : Bool) (e : Entry)
    (hs : e.eType = tSOURCE_INFO → e.sourceInfo.isSome) : Tame (entryToTextFmt gmtime L w unixDates e) := by
  unfold entryToTextFmt
  dsimp only
  split
  · unfold textRrset
    dsimp only
    exact (hw _).2.bind fun _ => (mild_uint64 _ _ _).2.bind fun _ => (mild_timeText _ _ _ _ _).2.bind fun _ =>
      (mild_timeText _ _ _ _ _).2.bind fun _ => (hw _).2.bind fun _ => .ok _
  split
  · unfold textRdata
    split
    · exact (hw _).2.bind fun _ => .ok _
    · exact .fail
  split
  · exact (hw _).2.bind fun _ => .ok _
  split
  · exact (hw _).2.bind fun _ => .ok _
  split
  · exact (mild_timeText _ _ _ _ _).2.bind fun _ => (mild_timeText _ _ _ _ _).2.bind fun _ => .ok _
  split
  · next h =>
    obtain ⟨s, hs⟩ := Option.isSome_iff_exists.1 (hs h)
    unfold textSource
    rw [hs]
    exact .ok _
  split
  · exact .ok _
  · exact .ok _

end libs

/-! ## The output functions -/

/-- The blocks of the entry are among the live ones. -/
theorem seen_of_own {m : EntryMem} {l : List (Nat × Bytes)} {n : Nat} (hl : m.rdatas.length = m.e.rdatas.length)
    (nd : (l.map Prod.fst).Nodup) (ho : ∀ b ∈ m.own, b ∈ l) (hn : ∀ y ∈ l, y.1 < n) :
    Seen [] ((n, []) :: l) ⟨n, n + 1⟩ m := by
  have hsee : ∀ b ∈ l, Sees [] ((n, []) :: l) ⟨n, n + 1⟩ b.1 b.2 := by
    intro b hb k c
    have hb' := hn b hb
    refine lookup_during (by simp only; omega) ?_
    rw [List.nil_append, List.lookup_cons, beq_eq_false_iff_ne.2 (by omega)]
    exact lookup_of_mem nd hb
  have hpre : ∀ b ∈ l, Present [] ((n, []) :: l) ⟨n, n + 1⟩ b.1 := by
    intro b hb k c
    unfold mTouch
    rw [mem_bind_eq, hsee b hb k c]
    rfl
  have hvec : ∀ v : VecMem, (∀ b ∈ v.own, b ∈ l) → VecPresent [] ((n, []) :: l) ⟨n, n + 1⟩ v := by
    intro v hv
    exact ⟨hpre (v.self, []) (hv _ (by simp [VecMem.own])), hpre (v.arr, []) (hv _ (by simp [VecMem.own]))⟩
  refine ⟨hpre (m.self, []) (ho _ (by simp [EntryMem.own])), hvec _ fun b hb => ho b (by simp [EntryMem.own, hb]), hl,
    fun b hb => hsee b (ho b (by simp [EntryMem.own, hb])), fun p hp => hsee _ (ho (p, m.e.name) ?_),
    fun p hp => hsee _ (ho (p, m.e.bailiwick) ?_), fun v hv => hvec _ fun b hb => ho b ?_,
    fun v hv => hvec _ fun b hb => ho b ?_⟩
  · simp [EntryMem.own, hp, blk]
  · simp [EntryMem.own, hp, blk]
  · simp [EntryMem.own, hv, vblk, hb]
  · simp [EntryMem.own, hv, vblk, hb]

/-- The live blocks have the entry among them. -/
structure Among (m : EntryMem) (l : List (Nat × Bytes)) : Prop where
  length : m.rdatas.length = m.e.rdatas.length
  nodup : (l.map Prod.fst).Nodup
  own : ∀ b ∈ m.own, b ∈ l

theorem renders_text {m : EntryMem} {l : List (Nat × Bytes)} (hm : Among m l) (hc : Complete m)
    (gmtime : Int → Option Tm) (L : Locale) {w : Wdns} (hw : ∀ n, Mild (w.domainToStr n)) (unixDates : Bool) :
    Renders l (entryToTextMem gmtime L w unixDates m) (entryToTextFmt gmtime L w unixDates m.e) := by
  refine renders_of fun n hn => ?_
  exact agrees_text (framed_new hn).2.2.1 (seen_of_own hm.length hm.nodup hm.own hn) hc gmtime L w unixDates
    (fun n => (hw n).1) fun b v => (mild_timeText _ _ _ _ _).1

theorem renders_json {m : EntryMem} {l : List (Nat × Bytes)} (hm : Among m l) (hc : Complete m)
    (numbuf : Bytes) (gmtime : Int → Option Tm) {w : Wdns} (hw : ∀ n, Mild (w.domainToStr n)) (f : Formatter) :
    Renders l (entryToJsonMem numbuf gmtime w f m) (entryToJsonFmt numbuf gmtime w f m.e) := by
  refine renders_of fun n hn => ⟨_, fmt_jsonBody (framed_new hn).2.2.1 (seen_of_own hm.length hm.nodup hm.own hn) hc
    numbuf gmtime w f, agrees_json (fun b => (mild_common hw _ _ _ _ _).1) fun b hk => ?_⟩
  apply Classical.byContradiction
  intro hu
  exact (mild_kind hw numbuf gmtime f m.e b (fun h => (hc.source h).2) hu).1 hk

end fmt

end Verif
