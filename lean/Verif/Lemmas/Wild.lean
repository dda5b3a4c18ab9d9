import Verif.Lemmas.Keys

/-!
# Lemmas: recognising wildcards in query names
-/

namespace Verif
open Spec

theorem getElem?_end (a : Bytes) (x y z : UInt8) :
    (a ++ [x, y, z])[(a ++ [x, y, z]).length - 3]? = some x ∧
    (a ++ [x, y, z])[(a ++ [x, y, z]).length - 2]? = some y := by
  have h1 : (a ++ [x, y, z]).length - 3 = a.length := by simp
  have h2 : (a ++ [x, y, z]).length - 2 = a.length + 1 := by simp
  rw [h1, h2]
  constructor
  · rw [List.getElem?_append_right (by omega)]; simp
  · rw [List.getElem?_append_right (by omega)]; simp

/-- The last three bytes of a name of at least one label. -/
theorem wire_end (m : Name) {l : Bytes} (hl : legalLabel l) :
    ∃ a x y, wire (m ++ [l]) = a ++ [x, y, 0] ∧
      ((∃ c, l = [c] ∧ x = 1 ∧ y = c ∧ a = flat m) ∨ ∃ p, l = p ++ [x, y]) := by
  have hw : wire (m ++ [l]) = flat m ++ UInt8.ofNat l.length :: (l ++ [0]) := by
    simp [wire_append, wire_cons]
  rcases List.eq_nil_or_concat l with rfl | ⟨l', y, rfl⟩
  · have := hl.1; simp at this
  · rcases List.eq_nil_or_concat l' with rfl | ⟨l'', x, rfl⟩
    · exact ⟨flat m, 1, y, by rw [hw]; simp, .inl ⟨y, rfl, rfl, rfl, rfl⟩⟩
    · refine ⟨flat m ++ UInt8.ofNat ((l'' ++ [x]) ++ [y]).length :: l'', x, y, ?_, .inr ⟨l'', ?_⟩⟩
      · rw [hw]; simp
      · simp

theorem isRightWildcard_end (a : Bytes) (x y z : UInt8) :
    isRightWildcard (a ++ [x, y, z]) = if x = 1 ∧ (y = 42 ∨ y = 43) then some (y == 43) else none := by
  unfold isRightWildcard
  rw [if_pos (by simp)]
  simp only [getElem?_end]

theorem isRightWildcard_plain {n : Name} (h : legalLabels n) (h1 : ¬ endsWild n) (h2 : ¬ endsLikeWild n) :
    isRightWildcard (wire n) = none := by
  rcases List.eq_nil_or_concat n with rfl | ⟨m, l, rfl⟩
  · rfl
  · rw [List.concat_eq_append] at h h1 h2 ⊢
    rw [legalLabels_append] at h
    obtain ⟨a, x, y, hw, hc⟩ := wire_end m (h.2 l (by simp))
    rw [hw, isRightWildcard_end, if_neg]
    rintro ⟨rfl, hy⟩
    rcases hc with ⟨c, rfl, -, rfl, -⟩ | ⟨p, rfl⟩
    · exact h1 ⟨y, m, rfl, hy⟩
    · exact h2 ⟨p, y, m, rfl, hy⟩

theorem isRightWildcard_wild (m : Name) {c : UInt8} (hc : c = 42 ∨ c = 43) :
    isRightWildcard (wire (m ++ [[c]])) = some (c == 43) := by
  have hw : wire (m ++ [[c]]) = flat m ++ [1, c, 0] := by simp [wire_append, wire_cons]
  rw [hw, isRightWildcard_end, if_pos ⟨rfl, hc⟩]

theorem isLeftWildcard_cons (x y z : UInt8) (s : Bytes) :
    isLeftWildcard (x :: y :: z :: s) = if x = 1 ∧ (y = 42 ∨ y = 43) then some (y == 43) else none := by
  unfold isLeftWildcard
  rw [if_pos (by simp)]
  rfl

theorem isLeftWildcard_plain {n : Name} (h : legalLabels n) (h1 : ¬ startsWild n) :
    isLeftWildcard (wire n) = none := by
  cases n with
  | nil => rfl
  | cons l m =>
    rw [legalLabels_cons] at h
    match l, h.1 with
    | [], hl => have := hl.1; simp at this
    | [c], _ =>
      have hw : ∃ z s, wire ([c] :: m) = 1 :: c :: z :: s := by
        cases m with
        | nil => exact ⟨0, [], by simp [wire_cons]⟩
        | cons l2 m2 => exact ⟨_, _, by rw [wire_cons, wire_cons]; rfl⟩
      obtain ⟨z, s, hw⟩ := hw
      rw [hw, isLeftWildcard_cons, if_neg]
      rintro ⟨-, hc⟩
      exact h1 ⟨c, m, rfl, hc⟩
    | c :: c2 :: cs, hl =>
      have hlen := label_len_toNat hl
      rw [wire_cons]
      simp only [List.cons_append]
      rw [isLeftWildcard_cons, if_neg]
      rintro ⟨h2, -⟩
      rw [h2] at hlen
      simp at hlen

theorem isLeftWildcard_wild (m : Name) {c : UInt8} (hc : c = 42 ∨ c = 43) :
    isLeftWildcard (wire ([c] :: m)) = some (c == 43) := by
  have hw : ∃ z s, wire ([c] :: m) = 1 :: c :: z :: s := by
    cases m with
    | nil => exact ⟨0, [], by simp [wire_cons]⟩
    | cons l2 m2 => exact ⟨_, _, by rw [wire_cons, wire_cons]; rfl⟩
  obtain ⟨z, s, hw⟩ := hw
  rw [hw, isLeftWildcard_cons, if_pos ⟨rfl, hc⟩]

theorem leftWildcardKey_wire (t : UInt8) {c : UInt8} {m : Name} (h : legalName m) :
    leftWildcardKey t (wire ([c] :: m)) = .ok (t :: flat m.reverse) := by
  have hw : wire ([c] :: m) = 1 :: c :: wire m := by simp [wire_cons]
  unfold leftWildcardKey
  rw [hw]
  simp only [List.drop_succ_cons, List.drop_zero, reverseName_wire h.1, Out.ok_bind, List.length_cons]
  have h2 := h.2
  have h3 := wire_reverse_length m
  have hl : (wire m.reverse).length = (flat m.reverse).length + 1 := by simp [wire]
  rw [if_neg (by simp only [maxLenName]; omega)]
  have e : (wire m).length + 1 + 1 - 2 - 1 = (flat m.reverse).length := by omega
  rw [e, wire, List.take_left]

/-! ## Opening a query -/

theorem addRrtype_leb (key : Bytes) {t : Nat} (h : t < 65536) (h2 : t ≠ 255) :
    addRrtype key t = .ok (key ++ leb t) := by
  rw [addRrtype, if_neg h2, encode32_eq_leb (by omega)]

theorem Ask.rrtypeIf_eq (a : Ask) (k : QType) (n : Bytes) :
    rrtypeIf (a.query k n) = match a.ty with
      | some t => [(.filterRrtype, filterRrtype t)]
      | none => [] := by
  unfold rrtypeIf filtIf Ask.query
  cases a.ty <;> rfl

theorem Ask.bailiwickIf_eq (a : Ask) (k : QType) (n : Bytes) :
    bailiwickIf (a.query k n) = match a.bw with
      | some bw => [(.filterBailiwick, filterBailiwick (wire bw.reverse))]
      | none => [] := by
  unfold bailiwickIf Ask.query
  cases a.bw <;> rfl

theorem typeBailiwick_passes {a : Ask} (ha : a.legal) {k : QType} {nm : Bytes} {r : RRset} (hr : r.legal)
    (v : Bytes) :
    ((rrtypeIf (a.query k nm) ++ bailiwickIf (a.query k nm)).all fun f => passes f.2 (r.key, v)) =
      (a.ty.all (· == r.rrtype) && a.bw.all (· == r.bailiwick)) := by
  rw [List.all_append, Ask.rrtypeIf_eq, Ask.bailiwickIf_eq]
  congr 1
  · cases a.ty with
    | none => rfl
    | some t => simp [passes_rrtype_rrset hr]
  · cases hb : a.bw with
    | none => rfl
    | some bw => simp [passes_bailiwick_rrset hr (ha.2 bw hb).1]

theorem typeBailiwick_good {a : Ask} {k : QType} {nm : Bytes} {T : Table}
    (h : ∀ kv ∈ T, ∃ r : RRset, r.legal ∧ kv.1 = r.key) :
    ∀ f ∈ rrtypeIf (a.query k nm) ++ bailiwickIf (a.query k nm), Good f.2 (passes f.2) T := by
  intro f hf
  rw [Ask.rrtypeIf_eq, Ask.bailiwickIf_eq, List.mem_append] at hf
  rcases hf with hf | hf
  · cases hty : a.ty with
    | none => simp [hty] at hf
    | some t =>
      simp only [hty, List.mem_singleton] at hf
      subst hf
      exact good_rrtype _ fun kv hkv => .inl (h kv hkv)
  · cases hbw : a.bw with
    | none => simp [hbw] at hf
    | some bw =>
      simp only [hbw, List.mem_singleton] at hf
      subst hf
      exact good_bailiwick _ h

/-! ## Prefixes of keys -/

theorem wire_append_prefix {m n : Name} (hm : legalLabels m) (hn : legalLabels n) (s t : Bytes) :
    wire m ++ s <+: wire n ++ t ↔ m = n ∧ s <+: t := by
  constructor
  · rintro ⟨u, hu⟩
    rw [List.append_assoc] at hu
    obtain ⟨h1, h2⟩ := wire_append_inj hm hn hu
    exact ⟨h1, u, h2⟩
  · rintro ⟨rfl, u, rfl⟩
    exact ⟨u, by simp⟩

theorem leb_append_prefix (a b : Nat) (s t : Bytes) : leb a ++ s <+: leb b ++ t ↔ a = b ∧ s <+: t := by
  constructor
  · rintro ⟨u, hu⟩
    rw [List.append_assoc] at hu
    obtain ⟨h1, h2⟩ := terminated_prefix_eq (leb_terminated a) (leb_terminated b) hu
    exact ⟨leb_inj h1, u, h2⟩
  · rintro ⟨rfl, u, rfl⟩
    exact ⟨u, by simp⟩

theorem inView_pfx (p x : Bytes) : inView (.pfx p) x = true ↔ p <+: x := by
  simp [inView]

/-- The keys of the RRsets of one owner. -/
theorem rrset_pfx {n : Name} (hn : legalLabels n) {r : RRset} (hr : r.legal) (s : Bytes) :
    0 :: (wire n.reverse ++ s) <+: r.key ↔
      r.owner = n ∧ s <+: leb r.rrtype ++ (wire r.bailiwick.reverse ++ rdataArray r.rdatas) := by
  have e : r.key = 0 :: (wire r.owner.reverse ++ (leb r.rrtype ++ (wire r.bailiwick.reverse ++ rdataArray r.rdatas))) := by
    simp [RRset.key]
  rw [e, List.cons_prefix_cons, wire_append_prefix (legalLabels_reverse.mpr hn) (legalLabels_reverse.mpr hr.1.1)]
  simp only [true_and, List.reverse_inj]
  rw [@eq_comm _ n]

theorem eq_of_not_rrset {want : Rec → Bool} {x : Rec} {p : Bytes} {b : Bool}
    (h0 : (∀ r o, x ≠ .rrset r o) → want x = false)
    (h1 : ∀ r o, x = .rrset r o → want x = (inView (.pfx (0 :: p)) x.key && b)) :
    want x = (inView (.pfx (0 :: p)) x.key && b) := by
  by_cases hx : ∃ r o, x = .rrset r o
  · obtain ⟨r, o, rfl⟩ := hx; exact h1 r o rfl
  · have : ∀ r o, x ≠ .rrset r o := fun r o h => hx ⟨r, o, h⟩
    rw [h0 this]
    cases hv : inView (.pfx (0 :: p)) x.key with
    | true => exact absurd (pfx_rrset hv) hx
    | false => rfl

/-- A world to try things in: the clock stands still, nothing has been counted. -/
def idleWorld (offset : Nat) : World := ⟨fun _ => ⟨0, 0⟩, 0, ⟨0, 0⟩, false, offset, fun _ => {}⟩

/-- The query iterator over a stored table, opened. -/
def openQuery (Ts : List Rec) (q : Query) (p : Plan) : Built :=
  assemble q (plainSources (curM (rowsOf Ts) fun _ _ => false)) p

/-- What the first call returns if a query (without time limits) delivers the records `E`. -/
theorem Spec.Delivers.first {Ts : List Rec} {q : Query} {E : List Rec} (h : Delivers Ts q E) {p : Plan}
    (hp : initKind q = .ok p) (hl : q.lim = {}) :
    (queryNext q (openQuery Ts q p) (openQuery Ts q p).start (idleWorld q.offset)).1 =
      match (E.drop q.offset).map Rec.entry with
      | [] => .failure
      | e :: _ => .entry e := by
  obtain ⟨p', hp', h⟩ := h fun _ _ => false
  rw [hp] at hp'
  have := Out.ok.inj hp'
  subst this
  have ha : q.lim.active = false := by rw [hl]; rfl
  have h1 := h [{}] (idleWorld q.offset) rfl (by rw [ha]; simp)
  have e : ({ q with lim := {} } : Query) = q := by rw [← hl]
  simp only [queryRun, e, ha] at h1
  change Returns false _ [_] at h1
  generalize (E.drop q.offset).map Rec.entry = L at h1 ⊢
  cases h1 with
  | entry h _ => exact h
  | failure h _ => exact h
  | timeout h _ _ => cases h

end Verif
