import Verif.Lemmas.Heap
import Verif.Model.EntryMem

/-! Decoding an entry with its allocations does what it does without, and owns its blocks. -/

namespace Verif

/-- `x`, started with the blocks `R`, does what `o` says: `Q` if that succeeds, `Qf` if it fails, the same fault. -/
structure Runs {α β : Type} (x : Mem α) (R : List (Nat × Bytes)) (o : Out β)
    (Q : β → α → List (Nat × Bytes) → Prop) (Qf : α → List (Nat × Bytes) → Prop) : Prop where
  ok : ∀ b, o = .ok b → Does x R (Q b)
  fail : o = .fail → Does x R Qf
  fault : ∀ f, o = .fault f → ∀ h, Owned h R → x h = .fault f

theorem Runs.ret {α β : Type} {x : Mem α} {R : List (Nat × Bytes)} {b : β}
    {Q : β → α → List (Nat × Bytes) → Prop} {Qf : α → List (Nat × Bytes) → Prop} (hq : Does x R (Q b)) :
    Runs x R (.ok b) Q Qf := ⟨fun _ e => by cases e; exact hq, nofun, nofun⟩

theorem Runs.fails {α β : Type} {x : Mem α} {R : List (Nat × Bytes)}
    {Q : β → α → List (Nat × Bytes) → Prop} {Qf : α → List (Nat × Bytes) → Prop} (hq : Does x R Qf) :
    Runs x R .fail Q Qf := ⟨nofun, fun _ => hq, nofun⟩

theorem Runs.pre {α β γ : Type} {x : Mem α} {k : α → Mem γ} {R : List (Nat × Bytes)} {o : Out β}
    {P : α → List (Nat × Bytes) → Prop} {Q : β → γ → List (Nat × Bytes) → Prop}
    {Qf : γ → List (Nat × Bytes) → Prop} (hx : Does x R P) (hk : ∀ a R', P a R' → Runs (k a) R' o Q Qf) :
    Runs (x >>= k) R o Q Qf := by
  refine ⟨fun b e => hx.bind fun a R' h => (hk a R' h).ok b e, fun e => hx.bind fun a R' h => (hk a R' h).fail e, ?_⟩
  intro f e h H
  obtain ⟨a, h1, R1, e1, H1, q1⟩ := hx h H
  show (x h >>= fun p => k p.1 p.2) = _
  rw [e1]
  exact (hk a R1 q1).fault f e h1 H1

theorem Runs.try {α β γ : Type} {v : Out α} {k : Option α → Mem γ} {R : List (Nat × Bytes)} {g : α → Out β}
    {Q : β → γ → List (Nat × Bytes) → Prop} {Qf : γ → List (Nat × Bytes) → Prop}
    (hs : ∀ a, v = .ok a → Runs (k (some a)) R (g a) Q Qf) (hn : v = .fail → Does (k none) R Qf) :
    Runs (mTry v >>= k) R (v >>= g) Q Qf := by
  cases v with
  | ok a =>
    have h := hs a rfl
    have e : ∀ hp, (mTry (Out.ok a) >>= k) hp = k (some a) hp := fun _ => rfl
    refine ⟨fun b eb hp H => ?_, fun eb hp H => ?_, fun f eb hp H => ?_⟩
    · obtain ⟨c, h', R', h1, h2⟩ := h.ok b eb hp H
      exact ⟨c, h', R', (e hp).trans h1, h2⟩
    · obtain ⟨c, h', R', h1, h2⟩ := h.fail eb hp H
      exact ⟨c, h', R', (e hp).trans h1, h2⟩
    · exact (e hp).trans (h.fault f eb hp H)
  | fail =>
    refine ⟨nofun, fun _ hp H => ?_, nofun⟩
    obtain ⟨c, h', R', h1, h2⟩ := hn rfl hp H
    exact ⟨c, h', R', h1, h2⟩
  | fault f =>
    refine ⟨nofun, nofun, fun f' e hp _ => ?_⟩
    cases e
    rfl

theorem Runs.seq {α β γ δ : Type} {x : Mem α} {k : α → Mem γ} {R : List (Nat × Bytes)} {o : Out β} {g : β → Out δ}
    {P : β → α → List (Nat × Bytes) → Prop} {Pf : α → List (Nat × Bytes) → Prop}
    {Q : δ → γ → List (Nat × Bytes) → Prop} {Qf : γ → List (Nat × Bytes) → Prop}
    (hx : Runs x R o P Pf) (hs : ∀ b a R', P b a R' → Runs (k a) R' (g b) Q Qf)
    (hf : ∀ a R', Pf a R' → Does (k a) R' Qf) : Runs (x >>= k) R (o >>= g) Q Qf := by
  cases o with
  | ok b => exact (Runs.pre (hx.ok b rfl) (fun a R' h => hs b a R' h) : Runs (x >>= k) R (g b) Q Qf)
  | fail => exact .fails ((hx.fail rfl).bind hf)
  | fault f =>
    refine ⟨nofun, nofun, ?_⟩
    intro f' e h H
    cases e
    show (x h >>= fun p => k p.1 p.2) = _
    rw [hx.fault f rfl h H]
    rfl

theorem Runs.perm {α β : Type} {x : Mem α} {R R' : List (Nat × Bytes)} {o : Out β}
    {Q : β → α → List (Nat × Bytes) → Prop} {Qf : α → List (Nat × Bytes) → Prop} (hp : R.Perm R')
    (h : Runs x R' o Q Qf) : Runs x R o Q Qf :=
  ⟨fun b e => .perm hp (h.ok b e), fun e => .perm hp (h.fail e), fun f e hh H => h.fault f e hh (H.mono hp)⟩

theorem Runs.map {α β γ : Type} {x : Mem α} {R : List (Nat × Bytes)} {o : Out β} {g : β → γ}
    {P : β → α → List (Nat × Bytes) → Prop} {Q : γ → α → List (Nat × Bytes) → Prop}
    {Pf Qf : α → List (Nat × Bytes) → Prop} (h : Runs x R o P Pf) (hq : ∀ b a R', P b a R' → Q (g b) a R')
    (hf : ∀ a R', Pf a R' → Qf a R') : Runs x R (o >>= fun b => .ok (g b)) Q Qf := by
  cases o with
  | ok b => exact .ret ((h.ok b rfl).weaken fun a R' => hq b a R')
  | fail => exact .fails ((h.fail rfl).weaken hf)
  | fault f => exact ⟨nofun, nofun, fun f' e => by cases e; exact h.fault f rfl⟩

/-! ## Vectors -/

/-- The blocks of a vector. -/
def VecMem.own (v : VecMem) : List (Nat × Bytes) := [(v.self, []), (v.arr, [])]

/-- The blocks of a vector, if there is one. -/
def vblk : Option VecMem → List (Nat × Bytes)
  | none => []
  | some v => v.own

theorem does_vecInit (R : List (Nat × Bytes)) : Does vecInitMem R fun v R' => R'.Perm (v.own ++ R) := by
  unfold vecInitMem
  refine (does_alloc _ _).bind ?_
  rintro p _ ⟨rfl, -⟩
  refine (does_alloc _ _).bind ?_
  rintro p _ ⟨rfl, -⟩
  refine .pure ?_
  unfold VecMem.own
  blocks

theorem does_vecTouch {v : VecMem} {R : List (Nat × Bytes)} (h : ∀ b ∈ v.own, b ∈ R) :
    Does (vecTouchMem v) R fun _ R' => R' = R := by
  unfold vecTouchMem
  refine (does_touch (List.mem_map.2 ⟨_, h (v.self, []) (by simp [VecMem.own]), rfl⟩)).bind ?_
  rintro _ _ rfl
  exact does_touch (List.mem_map.2 ⟨_, h (v.arr, []) (by simp [VecMem.own]), rfl⟩)

theorem does_vecDestroy (v : Option VecMem) (R : List (Nat × Bytes)) :
    Does (vecDestroyMem v) (vblk v ++ R) fun _ R' => R' = R := by
  cases v with
  | none => exact .pure rfl
  | some v =>
    unfold vecDestroyMem
    refine (does_touch (by simp [vblk, VecMem.own])).bind ?_
    rintro _ _ rfl
    refine .perm (R' := (v.arr, []) :: (v.self, []) :: R) (by simp only [vblk, VecMem.own]; blocks) ?_
    refine (does_free _ _ _).bind ?_
    rintro _ _ rfl
    exact does_free _ _ _

/-! ## Entries -/

/-- The blocks an entry owns, with what the accessors read in them. -/
def EntryMem.own (m : EntryMem) : List (Nat × Bytes) :=
  (m.self, []) :: (m.vec.own ++ m.rdatas.zip m.e.rdatas ++ blk m.name m.e.name ++ blk m.bailiwick m.e.bailiwick ++
    vblk m.rrtypeMap ++ vblk m.sourceInfo)

/-- The blocks are those of the entry and `F`. -/
def EntryMem.At (m : EntryMem) (F R : List (Nat × Bytes)) : Prop :=
  m.rdatas.length = m.e.rdatas.length ∧ R.Perm (m.own ++ F)

theorem EntryMem.At.self {m : EntryMem} {F R : List (Nat × Bytes)} (h : m.At F R) : m.self ∈ R.map Prod.fst :=
  (h.2.map Prod.fst).mem_iff.2 (by simp [EntryMem.own])

theorem EntryMem.At.vec {m : EntryMem} {F R : List (Nat × Bytes)} (h : m.At F R) : ∀ b ∈ m.vec.own, b ∈ R := by
  intro b hb
  refine h.2.mem_iff.2 ?_
  unfold EntryMem.own
  simp only [List.mem_append, List.mem_cons]
  exact .inl (.inr (.inl (.inl (.inl (.inl (.inl hb))))))

/-- What a decoding function ends with. -/
def DecOk (F : List (Nat × Bytes)) (e : Entry) (a : EntryMem × Bool) (R : List (Nat × Bytes)) : Prop :=
  a.2 = true ∧ a.1.e = e ∧ a.1.At F R

/-- What a decoding function that fails ends with. -/
def DecFail (F : List (Nat × Bytes)) (a : EntryMem × Bool) (R : List (Nat × Bytes)) : Prop :=
  a.2 = false ∧ a.1.At F R

theorem runs_simple (m : EntryMem) (o : Out Entry) (F R : List (Nat × Bytes)) (h : m.At F R)
    (hs : ∀ e, o = .ok e → e.rdatas = m.e.rdatas ∧ e.name = m.e.name ∧ e.bailiwick = m.e.bailiwick) :
    Runs (do
      mTouch m.self
      match ← mTry o with
      | none => pure (m, false)
      | some e => pure ({ m with e := e }, true)) R o (DecOk F) (DecFail F) := by
  refine .pre (does_touch h.self) ?_
  rintro _ R' e
  subst e
  have := Runs.try (v := o) (g := fun e => .ok e) (Q := DecOk F) (Qf := DecFail F)
    (k := fun x => match x with
      | none => pure (m, false)
      | some e => pure ({ m with e := e }, true)) (fun e he => by
        obtain ⟨h1, h2, h3⟩ := hs e he
        refine .ret (.pure ⟨rfl, rfl, ?_, ?_⟩)
        · simp [h1, h.1]
        · refine h.2.trans ?_
          simp [EntryMem.own, h1, h2, h3]) (fun _ => .pure ⟨rfl, h⟩)
  cases o <;> exact this

theorem runs_decodeValTriplet (m : EntryMem) (val : Bytes) (F R : List (Nat × Bytes)) (h : m.At F R) :
    Runs (decodeValTripletMem m val) R (decodeValTriplet m.e val) (DecOk F) (DecFail F) := by
  refine runs_simple m _ F R h ?_
  intro e he
  unfold decodeValTriplet at he
  revert he
  generalize tripletUnpack val = z
  cases z with
  | ok r => obtain ⟨a, b, c⟩ := r; intro he; cases he; exact ⟨rfl, rfl, rfl⟩
  | fail => intro he; cases he
  | fault f => intro he; cases he

theorem runs_decodeTimeRange (m : EntryMem) (val : Bytes) (F R : List (Nat × Bytes)) (h : m.At F R) :
    Runs (decodeTimeRangeMem m val) R (decodeTimeRange m.e val) (DecOk F) (DecFail F) := by
  refine runs_simple m _ F R h ?_
  intro e he
  unfold decodeTimeRange at he
  revert he
  generalize pairUnpack val = z
  cases z with
  | ok r => obtain ⟨a, b⟩ := r; intro he; cases he; exact ⟨rfl, rfl, rfl⟩
  | fail => intro he; cases he
  | fault f => intro he; cases he

theorem runs_decodeVersion (m : EntryMem) (buf val : Bytes) (F R : List (Nat × Bytes)) (h : m.At F R) :
    Runs (decodeVersionMem m buf val) R (decodeVersion m.e buf val) (DecOk F) (DecFail F) := by
  refine runs_simple m _ F R h ?_
  intro e he
  unfold decodeVersion at he
  split at he
  · split at he
    · cases he
    · revert he
      generalize varintDecode32 val = z
      cases z with
      | ok r =>
        obtain ⟨a, b⟩ := r
        intro he
        simp only [Out.ok_bind] at he
        split at he
        · cases he; exact ⟨rfl, rfl, rfl⟩
        · cases he
      | fail => intro he; cases he
      | fault f => intro he; cases he
  · cases he

theorem EntryMem.At.perm {m : EntryMem} {F R R' : List (Nat × Bytes)} (h : m.At F R) (p : R'.Perm R) : m.At F R' :=
  ⟨h.1, p.trans h.2⟩

theorem decodeRdatas_eq (p : Bytes) (hp : p ≠ []) : decodeRdatas p = (varintDecode32 p >>= fun x =>
      if x.2 > 65535 then .fail
      else if x.1 + x.2 > p.length then .fail
      else if x.1 + x.2 = 0 then .fault .diverge
      else (decodeRdatas (p.drop (x.1 + x.2)) >>= fun ds => Out.ok ((p.drop x.1).take x.2 :: ds))) := by
  rw [decodeRdatas, dif_neg hp]
  generalize varintDecode32 p = v
  cases v with
  | fail => rfl
  | fault f => rfl
  | ok x =>
    obtain ⟨a, b⟩ := x
    simp only [Out.ok_bind]
    split
    · rfl
    split
    · rfl
    split
    · rfl
    cases decodeRdatas (p.drop (a + b)) <;> rfl

theorem runs_decodeRdatas (m : EntryMem) (p : Bytes) (F R : List (Nat × Bytes)) (h : m.At F R) :
    Runs (decodeRdatasMem m p) R (decodeRdatas p)
      (fun ds => DecOk F { m.e with rdatas := m.e.rdatas ++ ds }) (DecFail F) := by
  induction hn : p.length using Nat.strongRecOn generalizing m p R with
  | _ n ih =>
  unfold decodeRdatasMem
  by_cases hp : p = []
  · rw [dif_pos hp, decodeRdatas, dif_pos hp]
    exact .ret (.pure ⟨rfl, by simp, h⟩)
  rw [dif_neg hp]
  rw [decodeRdatas_eq p hp]
  refine .try ?_ (fun _ => .pure ⟨rfl, h⟩)
  rintro ⟨a, b⟩ -
  simp only
  split
  · exact .fails (.pure ⟨rfl, h⟩)
  split
  · exact .fails (.pure ⟨rfl, h⟩)
  split
  · exact ⟨nofun, nofun, fun f e hh _ => by cases e; rfl⟩
  refine .pre (does_alloc _ _) ?_
  rintro d _ ⟨rfl, -⟩
  refine .pre (does_vecTouch (fun x hx => List.mem_cons_of_mem _ (h.vec x hx))) ?_
  rintro _ _ rfl
  have hpos := List.length_pos_iff.mpr hp
  have := ih _ (by subst hn; simp; omega) { m with
      rdatas := m.rdatas ++ [d], e := { m.e with rdatas := m.e.rdatas ++ [(p.drop a).take b] } }
    (p.drop (a + b)) ((d, (p.drop a).take b) :: R) ⟨by simp [h.1], by
      refine (h.2.cons _).trans ?_
      simp only [EntryMem.own, List.zip_append h.1, List.zip_cons_cons, List.zip_nil_right]
      blocks⟩ rfl
  refine this.map (g := fun ds => (p.drop a).take b :: ds) ?_ (fun _ _ h => h)
  rintro ds x R' ⟨h1, h2, h3⟩
  exact ⟨h1, by rw [h2]; simp, h3⟩

/-- An entry of which only the type is set. -/
def EntryMem.fresh (p : Nat) (v : VecMem) (ty : Nat) : EntryMem := { self := p, vec := v, e := { eType := ty } }

theorem At.fresh {p : Nat} {v : VecMem} (ty ty' : Nat) {F R : List (Nat × Bytes)}
    (h : (EntryMem.fresh p v ty).At F R) : (EntryMem.fresh p v ty').At F R := h

theorem runs_decodeRrset (p : Nat) (v : VecMem) (ty : Nat) (buf : Bytes) (F R : List (Nat × Bytes))
    (h : (EntryMem.fresh p v ty).At F R) :
    Runs (decodeRrsetMem (.fresh p v ty) buf) R (decodeRrset { eType := ty } buf) (DecOk F) (DecFail F) := by
  unfold decodeRrsetMem decodeRrset
  refine .try ?_ (fun _ => .pure ⟨rfl, h⟩)
  rintro ⟨name, ln⟩ -
  refine .pre (does_touch h.self) ?_
  rintro _ R' e
  rw [e]
  clear e R'
  refine .pre (does_alloc _ _) ?_
  rintro d _ ⟨rfl, -⟩
  have h1 : ({ EntryMem.fresh p v ty with name := some d, e := { eType := ty, name := name } } : EntryMem).At F
      ((d, name) :: R) := ⟨rfl, by
    refine (h.2.cons _).trans ?_
    simp only [EntryMem.own, EntryMem.fresh, blk, vblk]
    blocks⟩
  refine .try ?_ (fun _ => .pure ⟨rfl, h1⟩)
  rintro ⟨nt, rrtype⟩ -
  refine .try ?_ (fun _ => .pure ⟨rfl, h1⟩)
  rintro ⟨bw, lb⟩ -
  refine .pre (does_alloc _ _) ?_
  rintro d' _ ⟨rfl, -⟩
  have h2 : ({ EntryMem.fresh p v ty with
      name := some d, bailiwick := some d'
      e := { eType := ty, name := name, rrtype := rrtype, bailiwick := bw } } : EntryMem).At F
      ((d', bw) :: (d, name) :: R) := ⟨rfl, by
    refine (h1.2.cons _).trans ?_
    simp only [EntryMem.own, EntryMem.fresh, blk, vblk]
    blocks⟩
  exact (runs_decodeRdatas _ _ F _ h2).map
    (g := fun ds => ({ eType := ty, name := name, rrtype := rrtype, bailiwick := bw, rdatas := [] ++ ds } : Entry))
    (fun _ _ _ h => h) (fun _ _ h => h)

theorem does_decodeMap (m : EntryMem) (val : Bytes) (F R : List (Nat × Bytes)) (h : m.At F R)
    (hn : m.rrtypeMap = none) :
    Does (decodeMapMem m val) R fun a R' =>
      a.e = { m.e with rrtypeMap := if val.length > 0 then some val else m.e.rrtypeMap } ∧ a.At F R' := by
  unfold decodeMapMem
  split
  · refine (does_vecInit _).bind ?_
    intro v R' hp
    refine .perm hp ?_
    refine (does_vecTouch (by intro b hb; exact List.mem_append_left _ hb)).bind ?_
    rintro _ _ rfl
    refine .pure ⟨rfl, h.1, ?_⟩
    refine (h.2.append_left _).trans ?_
    simp only [EntryMem.own, hn, vblk]
    blocks
  · exact .pure ⟨rfl, h⟩

theorem runs_decodeRrsetNameFwd (p : Nat) (v : VecMem) (ty : Nat) (buf val : Bytes) (F R : List (Nat × Bytes))
    (h : (EntryMem.fresh p v ty).At F R) :
    Runs (decodeRrsetNameFwdMem (.fresh p v ty) buf val) R (decodeRrsetNameFwd { eType := ty } buf val)
      (DecOk F) (DecFail F) := by
  unfold decodeRrsetNameFwdMem decodeRrsetNameFwd
  refine .pre (does_touch h.self) ?_
  rintro _ _ rfl
  refine .pre (does_alloc _ _) ?_
  rintro d _ ⟨rfl, -⟩
  refine .pre (does_decodeMap _ val F _ ⟨rfl, ?_⟩ rfl) ?_
  · refine (h.2.cons _).trans ?_
    simp only [EntryMem.own, EntryMem.fresh, blk, vblk]
    blocks
  · rintro m R' ⟨h1, h2⟩
    exact .ret (.pure ⟨rfl, h1, h2⟩)

theorem runs_decodeRdataNameRev (p : Nat) (v : VecMem) (ty : Nat) (buf val : Bytes) (F R : List (Nat × Bytes))
    (h : (EntryMem.fresh p v ty).At F R) :
    Runs (decodeRdataNameRevMem (.fresh p v ty) buf val) R (decodeRdataNameRev { eType := ty } buf val)
      (DecOk F) (DecFail F) := by
  unfold decodeRdataNameRevMem decodeRdataNameRev
  have hn : ∀ (d : Nat) (b : Bytes), ({ EntryMem.fresh p v ty with
      name := some d, e := { eType := ty, name := b } } : EntryMem).At F ((d, b) :: R) := by
    intro d b
    refine ⟨rfl, (h.2.cons _).trans ?_⟩
    simp only [EntryMem.own, EntryMem.fresh, blk, vblk]
    blocks
  refine .pre (does_touch h.self) ?_
  rintro _ _ rfl
  refine .try ?_ ?_
  · rintro rev -
    refine .pre (does_alloc _ _) ?_
    rintro d _ ⟨rfl, -⟩
    refine .pre (does_decodeMap _ val F _ (hn d rev) rfl) ?_
    rintro m R' ⟨h1, h2⟩
    exact .ret (.pure ⟨rfl, h1, h2⟩)
  · intro _
    refine (does_alloc _ _).bind ?_
    rintro d _ ⟨rfl, -⟩
    exact .pure ⟨rfl, hn d buf⟩

theorem runs_decodeSourceInfo (p : Nat) (v : VecMem) (ty : Nat) (buf : Bytes) (F R : List (Nat × Bytes))
    (h : (EntryMem.fresh p v ty).At F R) :
    Runs (decodeSourceInfoMem (.fresh p v ty) buf) R (decodeSourceInfo { eType := ty } buf) (DecOk F) (DecFail F) := by
  unfold decodeSourceInfoMem decodeSourceInfo
  refine .pre (does_touch h.self) ?_
  rintro _ _ rfl
  refine .pre (does_vecInit _) ?_
  intro v' R' hp
  refine .perm hp ?_
  refine .pre (does_vecTouch (by intro b hb; exact List.mem_append_left _ hb)) ?_
  rintro _ _ rfl
  refine .ret (.pure ⟨rfl, rfl, rfl, ?_⟩)
  refine (h.2.append_left _).trans ?_
  simp only [EntryMem.own, EntryMem.fresh, blk, vblk]
  blocks

theorem runs_decodeRdata (p : Nat) (v : VecMem) (ty : Nat) (buf : Bytes) (F R : List (Nat × Bytes))
    (h : (EntryMem.fresh p v ty).At F R) :
    Runs (decodeRdataMem (.fresh p v ty) buf) R (decodeRdata { eType := ty } buf) (DecOk F) (DecFail F) := by
  unfold decodeRdataMem decodeRdata
  refine .pre (does_touch h.self) ?_
  rintro _ _ rfl
  split
  · exact .fails (.pure ⟨rfl, h⟩)
  refine .try ?_ (fun _ => .pure ⟨rfl, h⟩)
  rintro lo -
  refine .try ?_ (fun _ => .pure ⟨rfl, h⟩)
  rintro hi -
  simp only
  split
  · exact .fails (.pure ⟨rfl, h⟩)
  refine .try ?_ (fun _ => .pure ⟨rfl, h⟩)
  rintro ⟨nt, rrtype⟩ -
  simp only
  split
  · exact .fails (.pure ⟨rfl, h⟩)
  refine .try ?_ (fun _ => .pure ⟨rfl, h⟩)
  rintro ⟨name, ln⟩ -
  refine .pre (does_alloc _ _) ?_
  rintro d _ ⟨rfl, -⟩
  refine .pre (does_alloc _ _) ?_
  rintro d' _ ⟨rfl, -⟩
  refine .pre (does_vecTouch (fun x hx => List.mem_cons_of_mem _ (List.mem_cons_of_mem _ (h.vec x hx)))) ?_
  rintro _ _ rfl
  refine .ret (.pure ⟨rfl, rfl, rfl, ?_⟩)
  refine ((h.2.cons _).cons _).trans ?_
  simp only [EntryMem.own, EntryMem.fresh, blk, vblk, List.nil_append, List.zip_cons_cons, List.zip_nil_right]
  blocks

theorem does_freeAll (ps : List Nat) (cs : List Bytes) (hl : ps.length = cs.length) (R : List (Nat × Bytes)) :
    Does (freeAllMem ps) (ps.zip cs ++ R) fun _ R' => R' = R := by
  induction ps generalizing cs with
  | nil => exact .pure rfl
  | cons p ps ih =>
    cases cs with
    | nil => cases hl
    | cons c cs =>
      unfold freeAllMem
      refine (does_free p c _).bind ?_
      rintro _ _ rfl
      exact ih cs (by simpa using hl)

theorem does_entryDestroy (m : EntryMem) (F R : List (Nat × Bytes)) (h : m.At F R) :
    Does (entryDestroyMem (some m)) R fun a R' => a = none ∧ R' = F := by
  unfold entryDestroyMem
  refine (does_touch h.self).bind ?_
  rintro _ _ rfl
  refine (does_vecTouch h.vec).bind ?_
  rintro _ _ rfl
  refine .perm (R' := m.rdatas.zip m.e.rdatas ++ (vblk m.rrtypeMap ++ (vblk m.sourceInfo ++ (vblk (some m.vec) ++
    (blk m.name m.e.name ++ (blk m.bailiwick m.e.bailiwick ++ ((m.self, []) :: F))))))) (h.2.trans ?_) ?_
  · simp only [EntryMem.own, vblk]
    blocks
  refine (does_freeAll _ _ h.1 _).bind ?_
  rintro _ _ rfl
  refine (does_vecDestroy _ _).bind ?_
  rintro _ _ rfl
  refine (does_vecDestroy _ _).bind ?_
  rintro _ _ rfl
  refine (does_vecDestroy _ _).bind ?_
  rintro _ _ rfl
  refine (does_free_blk _ _ _).bind ?_
  rintro _ _ rfl
  refine (does_free_blk _ _ _).bind ?_
  rintro _ _ rfl
  refine (does_free _ _ _).bind ?_
  rintro _ _ rfl
  exact .pure ⟨rfl, rfl⟩

theorem runs_decodeKind (p : Nat) (v : VecMem) (t : UInt8) (buf val : Bytes) (F R : List (Nat × Bytes))
    (h : (EntryMem.fresh p v 0).At F R) :
    Runs (decodeKindMem { self := p, vec := v } t.toNat buf val) R (entryDecode (t :: buf) val) (DecOk F) (DecFail F) := by
  unfold decodeKindMem entryDecode
  simp only
  split
  · refine (runs_decodeRrset p v tRRSET buf F R h).seq ?_ ?_
    · rintro e ⟨m, b⟩ R' ⟨rfl, rfl, h3⟩
      exact runs_decodeValTriplet m val F R' h3
    · rintro ⟨m, b⟩ R' ⟨rfl, h2⟩
      exact .pure ⟨rfl, h2⟩
  split
  · exact runs_decodeRrsetNameFwd p v _ buf val F R h
  split
  · refine (runs_decodeRdata p v tRDATA buf F R h).seq ?_ ?_
    · rintro e ⟨m, b⟩ R' ⟨rfl, rfl, h3⟩
      exact runs_decodeValTriplet m val F R' h3
    · rintro ⟨m, b⟩ R' ⟨rfl, h2⟩
      exact .pure ⟨rfl, h2⟩
  split
  · exact runs_decodeRdataNameRev p v _ buf val F R h
  split
  · exact runs_decodeTimeRange (.fresh p v tTIME_RANGE) val F R h
  split
  · exact runs_decodeSourceInfo p v _ buf F R h
  split
  · exact runs_decodeVersion (.fresh p v tVERSION) buf val F R h
  exact .ret (.pure ⟨rfl, rfl, h⟩)

/-- Decoding yields an entry that owns its blocks, or nothing and no blocks. -/
theorem runs_entryDecode (key val : Bytes) (F : List (Nat × Bytes)) :
    Runs (entryDecodeMem key val) F (entryDecode key val)
      (fun e a R' => ∃ m, a = some m ∧ m.e = e ∧ m.At F R') (fun a R' => a = none ∧ R' = F) := by
  cases key with
  | nil => exact .fails (.pure ⟨rfl, rfl⟩)
  | cons t buf =>
    unfold entryDecodeMem
    refine .pre (does_alloc _ _) ?_
    rintro p _ ⟨rfl, -⟩
    refine .pre (does_vecInit _) ?_
    intro v R' hp
    have h := runs_decodeKind p v t buf val F R' ⟨rfl, hp.trans (by
      simp only [EntryMem.own, EntryMem.fresh, blk, vblk, List.zip_nil_right]
      blocks)⟩
    have := h.seq (g := fun e => .ok e)
      (k := fun x => if x.2 then pure (some x.1) else entryDestroyMem (some x.1))
      (Q := fun e a R' => ∃ m, a = some m ∧ m.e = e ∧ m.At F R') (Qf := fun a R' => a = none ∧ R' = F)
      (by
        rintro e ⟨m, b⟩ R'' ⟨rfl, rfl, h3⟩
        exact .ret (.pure ⟨m, rfl, rfl, h3⟩))
      (by
        rintro ⟨m, b⟩ R'' ⟨rfl, h3⟩
        exact does_entryDestroy m F R'' h3)
    revert this
    generalize entryDecode (t :: buf) val = o
    intro this
    cases o <;> exact this

end Verif
