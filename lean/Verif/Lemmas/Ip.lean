import Verif.Lemmas.Rdata
import Verif.Lemmas.Wild
import Verif.Spec.Ranges
import Verif.Lemmas.Addr

/-!
# Lemmas: skipping ahead over addresses
-/

namespace Verif
open Spec

/-- Key of an address record. -/
def Target (L : Nat) (t : UInt8) (x : Bytes) : Prop :=
  ∃ (a : Bytes) (n : Name), a.length = L ∧ legalLabels n ∧ x = 2 :: (a ++ t :: (wire n ++ [UInt8.ofNat L, 0]))

/-- What may be done at a key that is no address record: move on, or ahead to a key that no address
record lies before, or stop if there are none. -/
def SoundAt (L : Nat) (t : UInt8) (K : Bytes) : Verdict → Prop
  | .pass => False
  | .drop => True
  | .seekTo k => lexLt K k = true ∧ ∀ x, Target L t x → lexLt K x = true → lexLe k x = true
  | .stop => ∀ x, Target L t x → lexLt K x = false
  | .fault _ => False

/-- A string above `S ++ s` continues `S` or differs from it by a larger byte. -/
theorem lt_split {S s x : Bytes} (h : lexLt (S ++ s) x = true) :
    (∃ y, x = S ++ y ∧ lexLt s y = true) ∨
      ∃ p a b u v, S = p ++ a :: u ∧ x = p ++ b :: v ∧ a.toNat < b.toNat := by
  induction S generalizing x with
  | nil => exact .inl ⟨x, rfl, h⟩
  | cons c S ih =>
    cases x with
    | nil => simp at h
    | cons y ys =>
      rw [List.cons_append, lexLt_cons] at h
      rcases h with h | ⟨rfl, h⟩
      · exact .inr ⟨[], c, y, S, ys, rfl, rfl, h⟩
      · rcases ih h with ⟨y, rfl, h1⟩ | ⟨p, a, b, u, v, rfl, rfl, hab⟩
        · exact .inl ⟨y, rfl, h1⟩
        · exact .inr ⟨c :: p, a, b, u, v, rfl, rfl, hab⟩

theorem zeros_le_of_ne {u : Bytes} (h : ∃ c ∈ u, c ≠ 0) (m : Nat) : lexLe (List.replicate m 0) u = true := by
  cases hl : lexLe (List.replicate m 0) u with
  | true => rfl
  | false =>
    have h1 : lexLt u (List.replicate m 0) = true := by
      cases h2 : lexLt u (List.replicate m 0) with
      | true => rfl
      | false => rw [lexLt_false_iff, hl] at h2; cases h2
    obtain ⟨j, -, rfl⟩ := lexLt_zeros h1
    obtain ⟨c, hc, h0⟩ := h
    exact absurd (List.eq_of_mem_replicate hc) h0

theorem lexLe_append_left (p a b : Bytes) : lexLe (p ++ a) (p ++ b) = lexLe a b := by
  simp only [lexLe, lexLt_append_left]

/-- Zeros and then `r`, against as many bytes and something not below `r`. -/
theorem zeros_append_le {u r s : Bytes} (h : lexLe r s = true) :
    lexLe (List.replicate u.length 0 ++ r) (u ++ s) = true := by
  induction u with
  | nil => exact h
  | cons z zs ih =>
    rw [List.length_cons, List.replicate_succ, List.cons_append, List.cons_append]
    by_cases hz : z = 0
    · subst hz; exact (lexLe_append_left [0] _ _).trans ih
    · rw [lexLe_iff, lexLt_cons]
      left; left
      have : z.toNat ≠ 0 := fun e => hz (UInt8.toNat_inj.mp (by simpa using e))
      show 0 < z.toNat
      omega

theorem target_head {L : Nat} {t : UInt8} {x : Bytes} (h : Target L t x) : x.head? = some 2 := by
  obtain ⟨a, n, -, -, rfl⟩ := h; rfl

/-- Incrementing the last byte of a leading part of the key. -/
theorem increment_sound {L : Nat} {t : UInt8} {p s rest : Bytes}
    (h : ∀ x, Target L t x → lexLt (2 :: p ++ s) x = true → ∃ q a b u v, 2 :: p = q ++ a :: u ∧
      x = q ++ b :: v ∧ a.toNat < b.toNat ∧ lexLe (List.replicate u.length 0 ++ rest) v = true) :
    SoundAt L t (2 :: p ++ s) (ipIncrement (2 :: p ++ rest) ((2 :: p).length - 1)) := by
  obtain ⟨c, b0, n, k, h1, h2, h3, h4⟩ := increment_shape (key := 2 :: p ++ rest) (t := 2) (by decide) (p := p)
    (rest := rest) rfl
  unfold ipIncrement
  rw [h4]
  simp only
  have key : ∀ x, Target L t x → lexLt (2 :: p ++ s) x = true → c ≠ [] ∧ lexLe (k ++ rest) x = true := by
    intro x hx hlt
    obtain ⟨q, a, b, u, v, e1, e2, hab, hv⟩ := h x hx hlt
    rw [h1] at e1
    rcases Nat.lt_trichotomy q.length c.length with hlen | hlen | hlen
    · have hq : q <+: c := by
        have hq1 : q <+: c ++ b0 :: List.replicate n 255 := e1 ▸ List.prefix_append _ _
        exact List.prefix_of_prefix_length_le hq1 (List.prefix_append _ _) (by omega)
      obtain ⟨c', rfl⟩ := hq
      rw [List.append_assoc, List.append_cancel_left_eq] at e1
      cases c' with
      | nil => simp at hlen
      | cons a' c' =>
        rw [List.cons_append, List.cons.injEq] at e1
        refine ⟨by simp, lexLe_iff.2 (.inl ?_)⟩
        rw [h3, e2, e1.1]
        simp only [List.append_assoc, List.cons_append]
        exact lexLt_of_diff q hab _ _
    · obtain ⟨rfl, e3⟩ := List.append_inj e1 hlen.symm
      rw [List.cons.injEq] at e3
      obtain ⟨rfl, rfl⟩ := e3
      constructor
      · rintro rfl
        have ha : b0 = 2 := by simpa using (congrArg List.head? h1).symm
        have := target_head hx
        rw [e2] at this
        simp only [List.nil_append, List.head?_cons, Option.some.injEq] at this
        rw [this, ha] at hab
        exact absurd hab (by decide)
      · rw [h3, e2, List.append_assoc, lexLe_append_left, List.cons_append]
        rw [List.length_replicate] at hv
        by_cases hb : b = b0 + 1
        · subst hb
          exact (lexLe_append_left [b0 + 1] _ _).trans hv
        · rw [lexLe_iff, lexLt_cons]
          left; left
          have hne : (b0 + 1).toNat ≠ b.toNat := fun e => hb (UInt8.toNat_inj.mp e).symm
          rw [u8_succ h2] at hne ⊢
          omega
    · exfalso
      have hc : c ++ [b0] <+: q := by
        have hc1 : c ++ [b0] <+: q ++ a :: u := by rw [← e1]; exact ⟨List.replicate n 255, by simp⟩
        exact List.prefix_of_prefix_length_le hc1 (List.prefix_append _ _) (by simp; omega)
      obtain ⟨q', rfl⟩ := hc
      have e4 : List.replicate n 255 = q' ++ a :: u := by
        have : c ++ b0 :: List.replicate n 255 = c ++ b0 :: (q' ++ a :: u) := by simpa using e1
        simpa using this
      have ha : a = 255 := List.eq_of_mem_replicate (n := n) (by rw [e4]; simp)
      have := b.toNat_lt
      rw [ha] at hab
      have : (255 : UInt8).toNat = 255 := rfl
      omega
  by_cases hc : c = []
  · subst hc
    have hb : b0 = 2 := by simpa using (congrArg List.head? h1).symm
    rw [if_neg (by rw [h3, hb]; simp)]
    intro x hx
    cases hlt : lexLt (2 :: p ++ s) x with
    | false => rfl
    | true => exact absurd rfl (key x hx hlt).1
  · have hh : (k ++ rest).head? = some 2 := by
      cases c with
      | nil => exact absurd rfl hc
      | cons a c =>
        have : a = 2 := by simpa using (congrArg List.head? h1).symm
        rw [h3, this]; rfl
    rw [if_pos hh]
    refine ⟨?_, fun x hx hlt => (key x hx hlt).2⟩
    rw [h1, h3]
    exact shape_lt h2 s rest

/-- A key that begins like the key of an address record and goes on with labels. -/
abbrev ipHead (a : Bytes) (t : UInt8) (ls : Name) : Bytes := 2 :: (a ++ t :: flat ls)

/-- An address record that does not continue those labels still has nonzero bytes behind the difference. -/
theorem target_nonzero {L : Nat} {t : UInt8} {a : Bytes} {ls : Name} (hL : UInt8.ofNat L ≠ 0) (ha : a.length = L)
    (hls : legalLabels ls) {x p : Bytes} {c d : UInt8} {u v : Bytes} (hx : Target L t x)
    (h1 : ipHead a t ls = p ++ c :: u) (h2 : x = p ++ d :: v) : ∃ c ∈ v, c ≠ 0 := by
  obtain ⟨a', n, ha', hn, rfl⟩ := hx
  have e : 2 :: (a' ++ t :: (wire n ++ [UInt8.ofNat L, 0])) =
      (2 :: (a' ++ t :: wire n)) ++ [UInt8.ofNat L, 0] := by simp
  rw [e] at h2
  by_cases hp : (2 :: (a' ++ t :: wire n)).length ≤ p.length
  · exfalso
    have h3 : 2 :: (a' ++ t :: wire n) <+: ipHead a t ls := by
      have h4 : 2 :: (a' ++ t :: wire n) <+: p ++ d :: v := h2 ▸ List.prefix_append _ _
      have h5 := List.prefix_of_prefix_length_le h4 (List.prefix_append p (d :: v)) hp
      rw [h1]
      exact h5.trans (List.prefix_append _ _)
    rw [ipHead, List.cons_prefix_cons] at h3
    obtain ⟨r, hr⟩ := h3.2
    rw [List.append_assoc] at hr
    obtain ⟨-, hr'⟩ := List.append_inj hr (by omega)
    clear hr
    have hr := hr'
    rw [List.cons_append, List.cons.injEq] at hr
    have hw : wire n <+: wire ls ++ [] := by
      rw [List.append_nil, show wire ls = flat ls ++ [0] from rfl, ← hr.2, List.append_assoc]
      exact List.prefix_append _ _
    rw [wire_prefix_iff hn hls] at hw
    subst hw
    have := congrArg List.length hr.2
    simp [wire] at this
  · refine ⟨UInt8.ofNat L, ?_, hL⟩
    have hpp : p <+: 2 :: (a' ++ t :: wire n) :=
      List.prefix_of_prefix_length_le (by rw [h2]; exact List.prefix_append _ _ :
        p <+: 2 :: (a' ++ t :: wire n) ++ [UInt8.ofNat L, 0]) (List.prefix_append _ _) (by omega)
    obtain ⟨r, hr⟩ := hpp
    rw [← hr, List.append_assoc, List.append_cancel_left_eq] at h2
    cases r with
    | nil => rw [List.append_nil] at hr; rw [hr] at hp; exact absurd (Nat.le_refl _) hp
    | cons r0 r =>
      rw [List.cons_append, List.cons.injEq] at h2
      rw [← h2.2]; simp

/-- An address record that begins with those labels: the rest. -/
theorem target_cont {L : Nat} {t : UInt8} {a : Bytes} {ls : Name} (ha : a.length = L) (hls : legalLabels ls)
    {y : Bytes} (hx : Target L t (ipHead a t ls ++ y)) :
    ∃ n, legalLabels n ∧ y = wire n ++ [UInt8.ofNat L, 0] := by
  obtain ⟨a', n, ha', hn, e⟩ := hx
  simp only [ipHead, List.cons_append, List.append_assoc, List.cons.injEq, true_and] at e
  obtain ⟨-, e'⟩ := List.append_inj e (by omega)
  clear e
  have e := e'
  rw [List.cons.injEq] at e
  have h := (flat_prefix_iff hls hn [UInt8.ofNat L, 0]).1 (e.2 ▸ List.prefix_append _ _)
  obtain ⟨m, rfl⟩ := h
  rw [wire_append, List.append_assoc, List.append_cancel_left_eq] at e
  exact ⟨m, (legalLabels_append.1 hn).2, e.2⟩

theorem wire_first {n : Name} (hn : legalLabels n) (s : Bytes) :
    ∃ b r, wire n ++ s = b :: r ∧ b.toNat ≤ 63 ∧ (b = 0 → n = []) := by
  cases n with
  | nil => exact ⟨0, s, rfl, by decide, fun _ => rfl⟩
  | cons l n =>
    rw [legalLabels_cons] at hn
    refine ⟨UInt8.ofNat l.length, l ++ wire n ++ s, by rw [wire_cons]; simp, ?_, fun h => ?_⟩
    · rw [label_len_toNat hn.1]; exact hn.1.2
    · have := label_len_toNat hn.1
      rw [h] at this
      have := hn.1.1
      have : (0 : UInt8).toNat = 0 := rfl
      omega

/-- The label loop. -/
theorem walk_sound {L rrtype : Nat} {t : UInt8} (hk : AddrKind L rrtype) (ht : t = UInt8.ofNat rrtype) {a : Bytes}
    (ha : a.length = L) {K : Bytes} (n : Nat) {ls : Name} (hls : legalLabels ls) {s : Bytes}
    (hK : K = ipHead a t ls ++ s) (hn : s.length < n) (hcut : ∀ ms, legalLabels ms → K ≠ ipHead a t ms) :
    SoundAt L t K (ipWalk rrtype K n (ipHead a t ls)) := by
  have hL0 : UInt8.ofNat L ≠ 0 := by rcases hk with ⟨rfl, -⟩ | ⟨rfl, -⟩ <;> decide
  induction n generalizing ls s with
  | zero => omega
  | succ n ih =>
    cases s with
    | nil => rw [List.append_nil] at hK; exact absurd hK (hcut ls hls)
    | cons b s =>
      unfold ipWalk
      have hb : byteAt K (ipHead a t ls).length = .ok b := by rw [hK, byteAt_append]
      rw [hb]
      simp only
      -- what an address record above `K` looks like
      have split : ∀ x, Target L t x → lexLt K x = true →
          (∃ n c r, legalLabels n ∧ c.toNat ≤ 63 ∧ wire n ++ [UInt8.ofNat L, 0] = c :: r ∧ (c = 0 → n = []) ∧
              x = ipHead a t ls ++ c :: r ∧ lexLt (b :: s) (c :: r) = true) ∨
            ∃ p a' b' u v, ipHead a t ls = p ++ a' :: u ∧ x = p ++ b' :: v ∧ a'.toNat < b'.toNat ∧ ∃ c ∈ v, c ≠ 0 := by
        intro x hx hlt
        rw [hK] at hlt
        rcases lt_split hlt with ⟨y, rfl, h1⟩ | ⟨p, a', b', u, v, h1, h2, h3⟩
        · left
          obtain ⟨n, hn, rfl⟩ := target_cont ha hls hx
          obtain ⟨c, r, e, h63, h0⟩ := wire_first hn [UInt8.ofNat L, 0]
          rw [e] at h1 ⊢
          exact ⟨n, c, r, hn, h63, e, h0, rfl, h1⟩
        · exact .inr ⟨p, a', b', u, v, h1, h2, h3, target_nonzero hL0 ha hls hx h1 h2⟩
      by_cases h63 : b.toNat > 63
      · rw [if_pos h63, hK]
        have hi := increment_sound (L := L) (t := t) (p := a ++ t :: flat ls) (s := b :: s) (rest := []) (by
          intro x hx hlt
          rcases split x hx (by rw [hK]; exact hlt) with ⟨n, c, r, -, hc, -, -, -, h⟩ | ⟨p, a', b', u, v, h1, h2, h3, h4⟩
          · rw [lexLt_cons] at h
            rcases h with h | ⟨rfl, -⟩ <;> omega
          · exact ⟨p, a', b', u, v, h1, h2, h3, by rw [List.append_nil]; exact zeros_le_of_ne h4 _⟩)
        rw [List.append_nil] at hi
        exact hi
      rw [if_neg h63]
      by_cases hz : b.toNat = 0
      · rw [if_pos hz]
        have hb0 : b = 0 := UInt8.toNat_inj.mp (by simpa using hz)
        subst hb0
        have hrd : ipRdlen rrtype = .ok [UInt8.ofNat L, 0] := by
          rcases hk with ⟨rfl, rfl⟩ | ⟨rfl, rfl⟩ <;> decide +kernel
        rw [hrd]
        simp only
        by_cases hc : bytesCompare (ipHead a t ls ++ [0] ++ [UInt8.ofNat L, 0]) K = .gt
        · rw [if_pos hc]
          refine ⟨bytesCompare_gt.1 hc, fun x hx hlt => ?_⟩
          rcases split x hx hlt with ⟨n, c, r, hn, -, e, h0, rfl, h⟩ | ⟨p, a', b', u, v, h1, h2, h3, -⟩
          · rw [List.append_assoc, lexLe_append_left]
            rw [lexLe_iff]
            by_cases hc0 : c = 0
            · rw [h0 hc0] at e
              right
              rw [← e]; rfl
            · left
              show lexLt (0 :: _) _ = true
              rw [lexLt_cons]
              left
              have : c.toNat ≠ 0 := fun e => hc0 (UInt8.toNat_inj.mp (by simpa using e))
              show 0 < c.toNat
              omega
          · rw [h1, h2, lexLe_iff]
            left
            simp only [List.append_assoc, List.cons_append]
            exact lexLt_of_diff p h3 _ _
        · rw [if_neg hc, hK]
          have hle : lexLe (ipHead a t ls ++ [0] ++ [UInt8.ofNat L, 0]) K = true := by
            rw [← lexLt_false_iff]
            cases h : lexLt K (ipHead a t ls ++ [0] ++ [UInt8.ofNat L, 0]) with
            | false => rfl
            | true => exact absurd (bytesCompare_gt.2 h) hc
          have hi := increment_sound (L := L) (t := t) (p := (a ++ t :: flat ls) ++ [0]) (s := s) (rest := []) (by
            intro x hx hlt
            have hlt' : lexLt K x = true := by rw [hK]; simpa using hlt
            rcases split x hx hlt' with ⟨n, c, r, hn, hc, e, h0, rfl, h⟩ | ⟨p, a', b', u, v, h1, h2, h3, h4⟩
            · by_cases hc0 : c = 0
              · rw [h0 hc0] at e
                have : lexLt K (ipHead a t ls ++ [0] ++ [UInt8.ofNat L, 0]) = true := by
                  rw [List.append_assoc]
                  rw [← e] at hlt'
                  exact hlt'
                have h5 := lexLt_of_lt_of_le this hle
                rw [lexLt_irrefl] at h5
                cases h5
              · refine ⟨ipHead a t ls, 0, c, [], r, by simp, rfl, ?_, ?_⟩
                · have : c.toNat ≠ 0 := fun e => hc0 (UInt8.toNat_inj.mp (by simpa using e))
                  show 0 < c.toNat
                  omega
                · cases r <;> rfl
            · refine ⟨p, a', b', u ++ [0], v, ?_, h2, h3, by rw [List.append_nil]; exact zeros_le_of_ne h4 _⟩
              show ipHead a t ls ++ [0] = _
              rw [h1]; simp)
          rw [List.append_nil] at hi
          have e1 : 2 :: ((a ++ t :: flat ls) ++ [0]) ++ s = ipHead a t ls ++ 0 :: s := by simp
          have e2 : (2 :: ((a ++ t :: flat ls) ++ [0])).length - 1 = (ipHead a t ls).length := by
            simp; omega
          rw [e1, e2] at hi
          exact hi
      · rw [if_neg hz]
        by_cases hlong : b.toNat + 1 + (ipHead a t ls).length > K.length
        · rw [if_pos hlong]
          have hd : K.drop (ipHead a t ls).length = b :: s := by rw [hK, List.drop_left]
          have hKl : K.length = (ipHead a t ls).length + (s.length + 1) := by
            rw [hK, List.length_append]; rfl
          rw [hd, ← hK]
          refine ⟨lexLt_append_right_pos ?_, fun x hx hlt => ?_⟩
          · intro h
            have := congrArg List.length h
            simp only [List.length_replicate, List.length_nil] at this
            omega
          · rcases lexLt_cases hlt with ⟨z, hz0, rfl⟩ | ⟨p, a', b', u, v, h1, h2, h3⟩
            · rw [lexLe_append_left]
              rw [hK, List.append_assoc] at hx
              obtain ⟨n, hn, e⟩ := target_cont ha hls hx
              cases n with
              | nil =>
                rw [wire_nil] at e
                have : b = 0 := by simpa using (congrArg List.head? e)
                rw [this] at hz; exact absurd rfl hz
              | cons l n =>
                rw [legalLabels_cons] at hn
                rw [wire_cons] at e
                simp only [List.cons_append, List.append_assoc, List.cons.injEq] at e
                have hlb : b.toNat = l.length := by rw [e.1, label_len_toNat hn.1]
                have hzl : b.toNat + 1 + (ipHead a t ls).length - K.length ≤ z.length := by
                  have := congrArg List.length e.2
                  simp only [List.length_append] at this
                  omega
                obtain ⟨z1, z2, rfl, hz1⟩ : ∃ z1 z2, z = z1 ++ z2 ∧
                    z1.length = b.toNat + 1 + (ipHead a t ls).length - K.length :=
                  ⟨z.take _, z.drop _, (List.take_append_drop _ z).symm, List.length_take_of_le hzl⟩
                have := zeros_append_le (u := z1) (r := []) (s := z2) (by cases z2 <;> rfl)
                rw [List.append_nil, hz1] at this
                exact this
            · rw [h1, h2, lexLe_iff]
              left
              simp only [List.append_assoc, List.cons_append]
              exact lexLt_of_diff p h3 _ _
        · rw [if_neg hlong]
          have hKl : K.length = (ipHead a t ls).length + (s.length + 1) := by
            rw [hK, List.length_append]; rfl
          have hbs : b.toNat ≤ s.length := by omega
          have hl : legalLabel (s.take b.toNat) := by
            constructor <;> rw [List.length_take_of_le hbs] <;> omega
          have hlen : UInt8.ofNat (s.take b.toNat).length = b := by
            rw [List.length_take_of_le hbs]; exact UInt8.ofNat_toNat
          have hd : (K.drop ((ipHead a t ls).length + 1)).take b.toNat = s.take b.toNat := by
            rw [hK]
            have : (ipHead a t ls).length + 1 = (ipHead a t ls ++ [b]).length := by
              rw [List.length_append]; rfl
            rw [this, show ipHead a t ls ++ b :: s = (ipHead a t ls ++ [b]) ++ s by simp, List.drop_left]
          have e : ipHead a t ls ++ [b] ++ s.take b.toNat = ipHead a t (ls ++ [s.take b.toNat]) := by
            rw [ipHead, ipHead, flat_append, flat_cons, hlen]; simp
          rw [hd, e]
          refine ih (legalLabels_append.2 ⟨hls, fun l h => by rw [List.mem_singleton.1 h]; exact hl⟩)
            (s := s.drop b.toNat) ?_ ?_
          · rw [← e, hK]; simp
          · simp only [List.length_cons] at hn
            rw [List.length_drop]; omega

theorem Spec.AddrKind.lt {L t : Nat} (h : AddrKind L t) : t < 65536 ∧ t ≠ 255 := by
  rcases h with ⟨-, rfl⟩ | ⟨-, rfl⟩ <;> decide

theorem Spec.AddrKind.leb {L t : Nat} (h : AddrKind L t) : leb t = [UInt8.ofNat t] := by
  rcases h with ⟨-, rfl⟩ | ⟨-, rfl⟩ <;> decide +kernel

theorem Spec.AddrKind.add {L t : Nat} (h : AddrKind L t) (k : Bytes) : addRrtype k t = .ok (k ++ [UInt8.ofNat t]) := by
  rw [addRrtype_leb k h.lt.1 h.lt.2, h.leb]

theorem Spec.AddrKind.pre {L t : Nat} (h : AddrKind L t) : L + 2 - varintLength t = L + 1 := by
  rcases h with ⟨rfl, rfl⟩ | ⟨rfl, rfl⟩ <;> decide +kernel

theorem bytesCompareN_same {a b : Bytes} (h : a.length ≤ b.length) :
    bytesCompareN a a.length b a.length = .ok (bytesCompare a (b.take a.length)) := by
  rw [← bytesCompareN_full]
  unfold bytesCompareN memcmpN
  simp only [List.length_take, Nat.min_eq_left h, Nat.lt_irrefl, if_false, gt_iff_lt, List.take_take, Nat.min_self, h, and_self,
    Nat.le_refl]

/-- An address record above a key with the same first bytes and a byte that is not below the type. -/
theorem target_addr {L : Nat} {t : UInt8} {S s x rest : Bytes} (hS : (2 :: S).length = L + 1) (hx : Target L t x)
    (hlt : lexLt (2 :: S ++ s) x = true) (hr : lexLe rest [t] = true)
    (hs : ∀ n, legalLabels n → lexLt s (t :: (wire n ++ [UInt8.ofNat L, 0])) = false) :
    ∃ q a b u v, 2 :: S = q ++ a :: u ∧ x = q ++ b :: v ∧ a.toNat < b.toNat ∧
      lexLe (List.replicate u.length 0 ++ rest) v = true := by
  obtain ⟨a, n, ha, hn, rfl⟩ := hx
  have e : 2 :: (a ++ t :: (wire n ++ [UInt8.ofNat L, 0])) = (2 :: a) ++ t :: (wire n ++ [UInt8.ofNat L, 0]) := by simp
  rw [e] at hlt ⊢
  have hl : (2 :: S).length = (2 :: a).length := by rw [hS]; simp [ha]
  rcases lexLt_total (2 :: S) (2 :: a) with h | h | h
  · rcases lexLt_cases h with ⟨z, hz, h1⟩ | ⟨q, a', b', u, v, h1, h2, h3⟩
    · have := congrArg List.length h1
      rw [List.length_append, ← hl] at this
      have : z.length ≠ 0 := fun h => hz (List.length_eq_zero_iff.1 h)
      omega
    · refine ⟨q, a', b', u, v ++ t :: (wire n ++ [UInt8.ofNat L, 0]), h1, by rw [h2]; simp, h3, ?_⟩
      have hu : u.length = v.length := by
        rw [h1, h2] at hl
        simp only [List.length_append, List.length_cons] at hl
        omega
      rw [hu]
      refine zeros_append_le (lexLe_trans hr ?_)
      exact (lexLe_append [t] (wire n ++ [UInt8.ofNat L, 0]))
  · rw [h, lexLt_append_left, hs n hn] at hlt
    cases hlt
  · have := lexLt_append_of_length_eq hl.symm h (t :: (wire n ++ [UInt8.ofNat L, 0])) s
    rw [lexLt_asymm hlt] at this
    cases this

/-- Skipping ahead never moves backwards and omits no address record, from whatever key; unless the key is
`CutShort` it reads nothing behind the key. -/
theorem ipSkip_sound {L rrtype : Nat} (hk : AddrKind L rrtype) {K : Bytes} (h2 : K.head? = some 2)
    (hcut : ¬ CutShort L rrtype K) : SoundAt L (UInt8.ofNat rrtype) K (ipSkip rrtype (L + 2) K) := by
  unfold ipSkip
  simp only [hk.pre, hk.add]
  by_cases hshort : K.length < L + 1
  · rw [if_pos hshort]
    refine ⟨?_, fun x hx hlt => ?_⟩
    · rw [List.append_assoc]
      exact lexLt_append_right_pos (by simp)
    · rcases lexLt_cases hlt with ⟨z, hz, rfl⟩ | ⟨p, a', b', u, v, h1, h3, h4⟩
      · obtain ⟨a, n, ha, hn, e⟩ := hx
        rw [List.append_assoc, lexLe_append_left]
        have e' : K ++ z = (2 :: a) ++ UInt8.ofNat rrtype :: (wire n ++ [UInt8.ofNat L, 0]) := by rw [e]; simp
        have hz : z = (2 :: a).drop K.length ++ UInt8.ofNat rrtype :: (wire n ++ [UInt8.ofNat L, 0]) := by
          have := congrArg (List.drop K.length) e'
          rw [List.drop_left, List.drop_append_of_le_length (by simp; omega)] at this
          exact this
        rw [hz]
        have hl : ((2 :: a).drop K.length).length = L + 1 - K.length := by simp [ha]
        rw [← hl]
        exact zeros_append_le (lexLe_append [UInt8.ofNat rrtype] _)
      · rw [h1, h3, lexLe_iff]
        left
        simp only [List.append_assoc, List.cons_append]
        exact lexLt_of_diff p h4 _ _
  rw [if_neg hshort]
  have hlen : L + 2 ≤ K.length := by
    have : K.length ≠ L + 1 := fun h => hcut (.inl h)
    omega
  obtain ⟨S, c, s, hKe, hSl⟩ : ∃ S c s, K = 2 :: S ++ c :: s ∧ (2 :: S).length = L + 1 := by
    cases K with
    | nil => simp at h2
    | cons k K =>
      have hk2 : k = 2 := by simpa using h2
      subst hk2
      simp only [List.length_cons] at hlen
      refine ⟨K.take L, (K.drop L).head (by simp; omega), (K.drop L).tail, ?_, ?_⟩
      · rw [List.cons_append, List.cons_head_tail, List.take_append_drop]
      · simp; omega
  have htk : K.take (L + 1) = 2 :: S := by rw [hKe, ← hSl, List.take_left]
  have hsl : (2 :: S ++ [UInt8.ofNat rrtype]).length = L + 2 := by
    rw [List.length_append, hSl]; rfl
  have htk2 : K.take (L + 2) = 2 :: S ++ [c] := by
    have : 2 :: S ++ c :: s = (2 :: S ++ [c]) ++ s := by simp
    have hl : (2 :: S ++ [c]).length = L + 2 := by rw [List.length_append, hSl]; rfl
    rw [hKe, this, ← hl, List.take_left]
  rw [htk, bytesCompareN_same (by rw [hsl]; exact hlen), hsl, htk2]
  cases hcmp : bytesCompare (2 :: S ++ [UInt8.ofNat rrtype]) (2 :: S ++ [c]) with
  | lt =>
    simp only
    rw [bytesCompare_lt, lexLt_append_left, lexLt_cons] at hcmp
    have hc : (UInt8.ofNat rrtype).toNat < c.toNat := by
      rcases hcmp with h | ⟨-, h⟩
      · exact h
      · simp at h
    have := increment_sound (L := L) (t := UInt8.ofNat rrtype) (p := S) (s := c :: s) (rest := [UInt8.ofNat rrtype])
      (fun x hx hlt => target_addr hSl hx hlt (lexLe_refl _) (fun n hn => by
        apply lexLt_asymm
        rw [lexLt_cons]; exact .inl hc))
    rw [hSl, ← hKe] at this
    exact this
  | gt =>
    simp only
    rw [bytesCompare_gt, lexLt_append_left, lexLt_cons] at hcmp
    have hc : c.toNat < (UInt8.ofNat rrtype).toNat := by
      rcases hcmp with h | ⟨-, h⟩
      · exact h
      · simp at h
    refine ⟨by rw [hKe]; exact lexLt_of_diff _ hc _ _, fun x hx hlt => ?_⟩
    obtain ⟨a, n, ha, hn, rfl⟩ := hx
    have e : 2 :: (a ++ UInt8.ofNat rrtype :: (wire n ++ [UInt8.ofNat L, 0])) =
      (2 :: a) ++ UInt8.ofNat rrtype :: (wire n ++ [UInt8.ofNat L, 0]) := by simp
    rw [hKe, e] at hlt
    rw [e]
    have hl : (2 :: S).length = (2 :: a).length := by rw [hSl]; simp [ha]
    rcases lexLt_total (2 :: S) (2 :: a) with h | h | h
    · exact lexLe_iff.2 (.inl (lexLt_append_of_length_eq hl h _ _))
    · rw [h, lexLe_append_left]
      exact lexLe_append [UInt8.ofNat rrtype] _
    · have := lexLt_append_of_length_eq hl.symm h (UInt8.ofNat rrtype :: (wire n ++ [UInt8.ofNat L, 0])) (c :: s)
      rw [lexLt_asymm hlt] at this
      cases this
  | eq =>
    simp only
    rw [bytesCompare_eq] at hcmp
    have hc : c = UInt8.ofNat rrtype := by
      have := List.append_cancel_left hcmp
      simpa using this.symm
    subst hc
    by_cases hend : K.length ≤ L + 2
    · rw [if_pos hend]; trivial
    rw [if_neg hend]
    cases s with
    | nil => rw [hKe, hsl] at hend; exact absurd (Nat.le_refl _) hend
    | cons b s =>
      have hKe' : K = (2 :: S ++ [UInt8.ofNat rrtype]) ++ b :: s := by rw [hKe]; simp
      have hb : byteAt K (L + 2) = .ok b := by rw [hKe', ← hsl, byteAt_append]
      rw [hb]
      simp only
      by_cases hbig : b.toNat > 63 ∧ (rrtype = 1 ∨ rrtype = 28)
      · rw [if_pos hbig]
        have := increment_sound (L := L) (t := UInt8.ofNat rrtype) (p := S) (s := UInt8.ofNat rrtype :: b :: s) (rest := [])
          (fun x hx hlt => target_addr hSl hx hlt rfl (fun n hn => by
            apply lexLt_asymm
            rw [lexLt_cons]
            refine .inr ⟨rfl, ?_⟩
            obtain ⟨c, r, e, h63, -⟩ := wire_first hn [UInt8.ofNat L, 0]
            rw [e, lexLt_cons]
            exact .inl (by omega)))
        rw [hSl, ← hKe, List.append_nil] at this
        have ht : (2 :: S ++ [UInt8.ofNat rrtype]).take (L + 1) = 2 :: S := by rw [← hSl, List.take_left]
        rw [ht]
        exact this
      · rw [if_neg hbig]
        have hS' : S.length = L := by simpa using hSl
        have hh : ∀ ms, ipHead S (UInt8.ofNat rrtype) ms = 2 :: S ++ [UInt8.ofNat rrtype] ++ flat ms := by
          intro ms; simp
        have := walk_sound hk rfl hS' (K := K) (K.length + 1) (ls := []) (fun _ h => nomatch h) (s := b :: s)
          (by rw [hh, hKe']; simp) (by rw [hKe']; simp only [List.length_append]; omega) (by
            intro ms hms h
            refine hcut (.inr ⟨S, ms, hS', ?_, hms, h⟩)
            rintro rfl
            rw [h] at hend
            simp [hS'] at hend)
        rw [hh] at this
        simpa using this

/-- At a `CutShort` key that is reached without matching, a byte behind the key is read. -/
theorem ipSkip_cut {L rrtype : Nat} (hk : AddrKind L rrtype) {K : Bytes} (hcut : CutShort L rrtype K) :
    ipSkip rrtype (L + 2) K = .fault .oobRead := by
  unfold ipSkip
  simp only [hk.pre, hk.add]
  rcases hcut with h | ⟨a, ls, ha, hne, hls, rfl⟩
  · rw [if_neg (by omega), List.take_of_length_le (by omega)]
    have : bytesCompareN (K ++ [UInt8.ofNat rrtype]) (K ++ [UInt8.ofNat rrtype]).length K
        (K ++ [UInt8.ofNat rrtype]).length = .fault .oobRead := by
      unfold bytesCompareN memcmpN
      simp only [gt_iff_lt, Nat.lt_irrefl, if_false]
      rw [if_neg (by simp)]
      rfl
    rw [this]
  · have hw : ∀ (n : Nat) (ms ns : Name), legalLabels ms → legalLabels ns → (flat ns).length < n →
        ipWalk rrtype (ipHead a (UInt8.ofNat rrtype) (ms ++ ns)) n (ipHead a (UInt8.ofNat rrtype) ms) =
          .fault .oobRead := by
      intro n
      induction n with
      | zero => intro _ _ _ _ h; omega
      | succ n ih =>
        intro ms ns hms hns hl
        unfold ipWalk
        cases ns with
        | nil =>
          rw [List.append_nil]
          have : byteAt (ipHead a (UInt8.ofNat rrtype) ms) (ipHead a (UInt8.ofNat rrtype) ms).length = .fault .oobRead := by
            unfold byteAt
            rw [List.getElem?_eq_none (Nat.le_refl _)]
          rw [this]
        | cons l ns =>
          rw [legalLabels_cons] at hns
          have e : ipHead a (UInt8.ofNat rrtype) (ms ++ l :: ns) =
              ipHead a (UInt8.ofNat rrtype) ms ++ UInt8.ofNat l.length :: (l ++ flat ns) := by
            simp [ipHead, flat_append, flat_cons]
          have hb : byteAt (ipHead a (UInt8.ofNat rrtype) (ms ++ l :: ns)) (ipHead a (UInt8.ofNat rrtype) ms).length =
              .ok (UInt8.ofNat l.length) := by rw [e, byteAt_append]
          rw [hb]
          have := hns.1.1
          have := hns.1.2
          simp only [label_len_toNat hns.1]
          rw [if_neg (by omega), if_neg (by omega), if_neg (by rw [e]; simp only [List.length_append, List.length_cons]; omega)]
          have e2 : ipHead a (UInt8.ofNat rrtype) ms ++ [UInt8.ofNat l.length] ++
              ((ipHead a (UInt8.ofNat rrtype) (ms ++ l :: ns)).drop ((ipHead a (UInt8.ofNat rrtype) ms).length + 1)).take
                l.length = ipHead a (UInt8.ofNat rrtype) (ms ++ [l]) := by
            have h1 : ipHead a (UInt8.ofNat rrtype) ms ++ UInt8.ofNat l.length :: (l ++ flat ns) =
              (ipHead a (UInt8.ofNat rrtype) ms ++ [UInt8.ofNat l.length]) ++ (l ++ flat ns) := by simp
            have h2 : (ipHead a (UInt8.ofNat rrtype) ms).length + 1 =
              (ipHead a (UInt8.ofNat rrtype) ms ++ [UInt8.ofNat l.length]).length := by rw [List.length_append]; rfl
            rw [e, h1, h2, List.drop_left, List.take_left]
            simp [ipHead, flat_append, flat_cons]
          rw [e2]
          have := ih (ms ++ [l]) ns (legalLabels_append.2 ⟨hms, fun x h => by rw [List.mem_singleton.1 h]; exact hns.1⟩)
            hns.2 (by rw [flat_cons] at hl; simp only [List.length_cons, List.length_append] at hl; omega)
          rw [List.append_assoc, List.singleton_append] at this
          exact this
    have hSl : (2 :: a).length = L + 1 := by simp [ha]
    have hKe : 2 :: (a ++ UInt8.ofNat rrtype :: flat ls) = (2 :: a ++ [UInt8.ofNat rrtype]) ++ flat ls := by simp
    have hsl : (2 :: a ++ [UInt8.ofNat rrtype]).length = L + 2 := by rw [List.length_append, hSl]; rfl
    have hlt : L + 2 < (2 :: (a ++ UInt8.ofNat rrtype :: flat ls)).length := by
      rw [hKe, List.length_append, hsl]
      cases ls with
      | nil => exact absurd rfl hne
      | cons l ls => rw [flat_cons]; simp
    have htk : (2 :: (a ++ UInt8.ofNat rrtype :: flat ls)).take (L + 1) = 2 :: a := by
      rw [show 2 :: (a ++ UInt8.ofNat rrtype :: flat ls) = 2 :: a ++ UInt8.ofNat rrtype :: flat ls by simp, ← hSl,
        List.take_left]
    have htk2 : (2 :: (a ++ UInt8.ofNat rrtype :: flat ls)).take (L + 2) = 2 :: a ++ [UInt8.ofNat rrtype] := by
      rw [hKe, ← hsl, List.take_left]
    rw [if_neg (by omega), htk, bytesCompareN_same (by omega), hsl, htk2, bytesCompare_eq.2 rfl]
    simp only
    rw [if_neg (by omega)]
    cases ls with
    | nil => exact absurd rfl hne
    | cons l ls =>
      have hl := (legalLabels_cons.1 hls).1
      have hb : byteAt (2 :: (a ++ UInt8.ofNat rrtype :: flat (l :: ls))) (L + 2) = .ok (UInt8.ofNat l.length) := by
        rw [hKe, flat_cons, ← hsl, byteAt_append]
      rw [hb]
      simp only [label_len_toNat hl]
      have := hl.2
      rw [if_neg (by omega)]
      have := hw ((2 :: (a ++ UInt8.ofNat rrtype :: flat (l :: ls))).length + 1) [] (l :: ls) (fun _ h => nomatch h) hls
        (by rw [hKe, List.length_append]; omega)
      have e : ipHead a (UInt8.ofNat rrtype) [] = 2 :: a ++ [UInt8.ofNat rrtype] := by simp
      rw [e] at this
      exact this

theorem target_key {L t : Nat} (hk : AddrKind L t) {r : RR} (hr : r.legal) (ht : r.rrtype = t) (hl : r.lead = [])
    (hL : r.tail.length = L) : Target L (UInt8.ofNat t) r.key := by
  refine ⟨r.tail, r.owner.reverse, hL, legalLabels_reverse.mpr hr.1.1, ?_⟩
  have hw : word16 L = [UInt8.ofNat L, 0] := by rcases hk with ⟨rfl, -⟩ | ⟨rfl, -⟩ <;> decide
  rw [rr_key_eq, ht, hk.leb, hl, hL, hw]
  simp

/-- Whatever the view, if it covers only data records, and among those of other types no `CutShort` key. -/
theorem good_ip {L t : Nat} (hk : AddrKind L t) {Ts : List Rec} (hS : Stored Ts) (hA : AddrRecords L t Ts) {V : View}
    (hV : ∀ x ∈ Ts, inView V x.key = true → ∃ r o, x = .rr r o)
    (hc : ∀ r o, Rec.rr r o ∈ Ts → r.rrtype ≠ t → inView V r.key = true → ¬ CutShort L t r.key) :
    Good (filterRrtypeIp t (L + 2)) (passes (filterRrtypeIp t (L + 2))) (rowsIn (rowsOf Ts) V) := by
  have hrow : ∀ kv ∈ rowsIn (rowsOf Ts) V,
      (filterRrtypeIp t (L + 2) kv = .pass ∧ Target L (UInt8.ofNat t) kv.1) ∨
      SoundAt L (UInt8.ofNat t) kv.1 (filterRrtypeIp t (L + 2) kv) := by
    intro kv hkv
    obtain ⟨x, hx, rfl, hv⟩ := rowsIn_rec hkv
    obtain ⟨r, o, rfl⟩ := hV x hx hv
    have hl : r.legal := (hS.legal _ hx).1
    have hm := rrtypeMatch_rr hl t
    have e : filterRrtype t (Rec.rr r o).row = verdictOf (.ok (r.rrtype == t)) := by rw [← hm]; rfl
    by_cases h : r.rrtype = t
    · left
      have : (r.rrtype == t) = true := by simpa using h
      rw [this] at e
      obtain ⟨h1, h2⟩ := hA r o hx h
      refine ⟨?_, target_key hk hl h h1 h2⟩
      unfold filterRrtypeIp
      rw [e]; rfl
    · right
      have hb : (r.rrtype == t) = false := by simpa using h
      rw [hb] at e
      unfold filterRrtypeIp
      rw [e]
      exact ipSkip_sound hk (by rw [Rec.row]; exact congrArg List.head? (rr_key_eq r)) (hc r o hx h hv)
  have hkeep : ∀ kv ∈ rowsIn (rowsOf Ts) V, passes (filterRrtypeIp t (L + 2)) kv = true →
      Target L (UInt8.ofNat t) kv.1 := by
    intro kv hkv h
    rcases hrow kv hkv with h1 | h1
    · exact h1.2
    · unfold passes at h
      rw [of_decide_eq_true h] at h1
      exact h1.elim
  intro kv hkv
  rcases hrow kv hkv with ⟨h1, -⟩ | h1
  · rw [h1]
    exact decide_eq_true h1
  have hself : filterRrtypeIp t (L + 2) kv ≠ .pass → passes (filterRrtypeIp t (L + 2)) kv = false :=
    fun h => decide_eq_false h
  have hafter : ∀ x ∈ rowsIn (rowsOf Ts) V, lexLe kv.1 x.1 = true → passes (filterRrtypeIp t (L + 2)) x = true →
      filterRrtypeIp t (L + 2) kv ≠ .pass → lexLt kv.1 x.1 = true := by
    intro x hx hle hp hne
    rcases lexLe_iff.1 hle with h | h
    · exact h
    · exfalso
      apply hne
      have hp' : filterRrtypeIp t (L + 2) x = .pass := of_decide_eq_true hp
      rw [← hp']
      unfold filterRrtypeIp filterRrtype
      rw [h]
  cases hf : filterRrtypeIp t (L + 2) kv with
  | pass => rw [hf] at h1; exact h1.elim
  | drop => exact hself (by rw [hf]; exact fun h => nomatch h)
  | fault f => rw [hf] at h1; exact h1.elim
  | stop =>
    rw [hf] at h1
    intro x hx hle
    cases hp : passes (filterRrtypeIp t (L + 2)) x with
    | false => rfl
    | true =>
      have := h1 x.1 (hkeep x hx hp)
      rw [hafter x hx hle hp (by rw [hf]; exact fun h => nomatch h)] at this
      cases this
  | seekTo k =>
    rw [hf] at h1
    refine ⟨hself (by rw [hf]; exact fun h => nomatch h), h1.1, fun x hx hle hlt => ?_⟩
    cases hp : passes (filterRrtypeIp t (L + 2)) x with
    | false => rfl
    | true =>
      have := h1.2 x.1 (hkeep x hx hp) (hafter x hx hle hp (by rw [hf]; exact fun h => nomatch h))
      rw [← lexLt_false_iff, hlt] at this
      cases this

theorem passes_ip {L t : Nat} (hk : AddrKind L t) {r : RR} (hr : r.legal) (v : Bytes)
    (hc : r.rrtype ≠ t → ¬ CutShort L t r.key) :
    passes (filterRrtypeIp t (L + 2)) (r.key, v) = (t == r.rrtype) := by
  have hm := rrtypeMatch_rr hr t
  have e : filterRrtype t (r.key, v) = verdictOf (.ok (r.rrtype == t)) := by rw [← hm]; rfl
  by_cases h : r.rrtype = t
  · have hb : (r.rrtype == t) = true := by simpa using h
    rw [hb] at e
    unfold passes filterRrtypeIp
    rw [e, h]
    simp [verdictOf_ok]
  · have hb : (r.rrtype == t) = false := by simpa using h
    have hb' : (t == r.rrtype) = false := by simpa using Ne.symm h
    rw [hb] at e
    rw [hb']
    unfold passes filterRrtypeIp
    rw [e]
    have := ipSkip_sound hk (K := r.key) (congrArg List.head? (rr_key_eq r)) (hc h)
    simp only [verdictOf_ok, Bool.false_eq_true, if_false]
    apply decide_eq_false
    intro h'
    rw [h'] at this
    exact this

theorem range_rr {p q : Bytes} {x : Rec} (h : inView (.range (2 :: p) (2 :: q)) x.key = true) : ∃ r o, x = .rr r o := by
  simp only [inView, Bool.and_eq_true] at h
  obtain ⟨k, ks, he⟩ : ∃ k ks, x.key = k :: ks := by
    cases hx : x.key with
    | nil => rw [hx] at h; simp [lexLe] at h
    | cons k ks => exact ⟨k, ks, rfl⟩
  have : k = 2 := by
    rw [he, lexLe_iff, lexLt_cons, lexLe_iff, lexLt_cons] at h
    simp only [List.cons.injEq] at h
    rcases h with ⟨(h1 | h1) | h1, (h2 | h2) | h2⟩
    · have : (2 : UInt8).toNat < k.toNat ∧ k.toNat < (2 : UInt8).toNat := ⟨h1, h2⟩
      omega
    all_goals first | exact h2.1 | exact h1.1.symm
  subst this
  cases x with
  | rr r o => exact ⟨r, o, rfl⟩
  | _ => simp [Rec.key, RRset.key, fwdIndexKey, revIndexKey] at he

theorem lexLe_addr {x y : Bytes} (h : x.length = y.length) : lexLe x y = true ↔ addrVal x ≤ addrVal y := lexLe_load h

/-- Comparing followed by something: strings of the same length. -/
theorem lexLe_ext {x y s u : Bytes} (h : x.length = y.length) (hs : lexLe s u = true) :
    lexLe (x ++ s) (y ++ u) = lexLe x y := by
  rcases lexLt_total x y with h1 | h1 | h1
  · rw [lexLe_iff.2 (.inl h1), lexLe_iff.2 (.inl (lexLt_append_of_length_eq h h1 _ _))]
  · rw [h1, lexLe_append_left, hs, lexLe_refl]
  · have h2 := lexLt_append_of_length_eq h.symm h1 u s
    rw [Bool.eq_iff_iff, ← lexLt_false_iff, ← lexLt_false_iff, h1, h2]

end Verif
