import Verif.Model.Names
import Verif.Lemmas.Union

/-! Helper lemmas about wire names. -/

namespace Verif
open Spec

@[simp] theorem flat_nil : flat [] = [] := rfl
theorem flat_cons (l : Bytes) (n : Name) : flat (l :: n) = UInt8.ofNat l.length :: (l ++ flat n) := by
  simp [flat]
theorem flat_append (m n : Name) : flat (m ++ n) = flat m ++ flat n := by simp [flat]
@[simp] theorem wire_nil : wire [] = [0] := rfl
theorem wire_cons (l : Bytes) (n : Name) : wire (l :: n) = UInt8.ofNat l.length :: (l ++ wire n) := by
  simp [wire, flat_cons]
theorem wire_append (m n : Name) : wire (m ++ n) = flat m ++ wire n := by simp [wire, flat_append]

theorem legalLabels_cons {l : Bytes} {n : Name} : legalLabels (l :: n) ↔ legalLabel l ∧ legalLabels n := by
  simp [legalLabels]
theorem legalLabels_append {m n : Name} : legalLabels (m ++ n) ↔ legalLabels m ∧ legalLabels n := by
  simp only [legalLabels, List.mem_append]
  exact ⟨fun h => ⟨fun l hl => h l (.inl hl), fun l hl => h l (.inr hl)⟩,
    fun h l hl => hl.elim (h.1 l) (h.2 l)⟩
theorem legalLabels_reverse {n : Name} : legalLabels n.reverse ↔ legalLabels n := by
  simp [legalLabels]

theorem label_len_toNat {l : Bytes} (h : legalLabel l) : (UInt8.ofNat l.length).toNat = l.length :=
  u8_ofNat_length (by have := h.2; omega)

theorem parseLabels_wire {n : Name} (h : legalLabels n) (rest : Bytes) :
    parseLabels (wire n ++ rest) = some (n, rest) := by
  induction n with
  | nil => rw [wire_nil, List.cons_append, List.nil_append, parseLabels]; simp
  | cons l n ih =>
    rw [legalLabels_cons] at h
    have hl := h.1
    rw [wire_cons, List.cons_append, parseLabels, label_len_toNat hl, List.append_assoc]
    rw [if_neg (by have := hl.1; omega), if_neg (by have := hl.2; omega),
      if_neg (by simp only [List.length_append]; omega)]
    simp only [List.drop_left, List.take_left, ih h.2, Option.map_some]

theorem parseLabels_some {buf : Bytes} {n : Name} {rest : Bytes}
    (h : parseLabels buf = some (n, rest)) : legalLabels n ∧ buf = wire n ++ rest := by
  induction hlen : buf.length using Nat.strongRecOn generalizing buf n rest with
  | _ k ih =>
    cases buf with
    | nil => simp [parseLabels] at h
    | cons c cs =>
      rw [parseLabels] at h
      split at h
      · rename_i hc
        have : c = 0 := UInt8.toNat_inj.mp (by simpa using hc)
        simp at h; obtain ⟨rfl, rfl⟩ := h
        subst this
        exact ⟨by simp [legalLabels], rfl⟩
      · split at h
        · cases h
        · split at h
          · cases h
          · rename_i h1 h2 h3
            cases hr : parseLabels (cs.drop c.toNat) with
            | none => rw [hr] at h; cases h
            | some r =>
              rw [hr] at h
              simp only [Option.map_some, Option.some.injEq, Prod.mk.injEq] at h
              obtain ⟨rfl, rfl⟩ := h
              obtain ⟨e1, e2⟩ := ih (cs.drop c.toNat).length
                (by simp at hlen ⊢; omega) (n := r.1) (rest := r.2) hr rfl
              have htl : (cs.take c.toNat).length = c.toNat := by simp; omega
              refine ⟨legalLabels_cons.mpr ⟨⟨by omega, by omega⟩, e1⟩, ?_⟩
              rw [wire_cons, htl, List.cons_append, List.append_assoc, ← e2, List.take_append_drop]
              congr 1
              exact UInt8.toNat_inj.mp (by rw [u8_toNat_ofNat]; have := c.toNat_lt; omega)

theorem wire_append_inj {m n : Name} (hm : legalLabels m) (hn : legalLabels n) {s t : Bytes}
    (h : wire m ++ s = wire n ++ t) : m = n ∧ s = t := by
  have h1 := parseLabels_wire hm s
  rw [h, parseLabels_wire hn t] at h1
  simpa [eq_comm] using h1

theorem wire_inj {m n : Name} (hm : legalLabels m) (hn : legalLabels n) (h : wire m = wire n) :
    m = n := by
  have : wire m ++ [] = wire n ++ [] := by simpa using h
  exact (wire_append_inj hm hn this).1

theorem lenUname_wire {n : Name} (h : legalLabels n) (rest : Bytes) :
    lenUname (wire n ++ rest) = .ok (wire n).length := by
  simp [lenUname, parseLabels_wire h rest]

theorem reverseName_wire {n : Name} (h : legalLabels n) : reverseName (wire n) = .ok (wire n.reverse) := by
  have := parseLabels_wire h []
  rw [List.append_nil] at this
  simp [reverseName, this]

theorem flat_length (n : Name) : (flat n).length = (n.map (·.length + 1)).sum := by
  induction n with
  | nil => rfl
  | cons l n ih => rw [flat_cons]; simp [ih]; omega

theorem wire_reverse_length (n : Name) : (wire n.reverse).length = (wire n).length := by
  simp only [wire, List.length_append, flat_length]
  rw [List.map_reverse, List.sum_reverse]

theorem wire_ne_nil (n : Name) : wire n ≠ [] := by simp [wire]
theorem wire_length_pos (n : Name) : 0 < (wire n).length := List.length_pos_iff.mpr (wire_ne_nil n)

/-- A byte string holding a name starts with some labels exactly when the name does. -/
theorem flat_prefix_iff {m n : Name} (hm : legalLabels m) (hn : legalLabels n) (s : Bytes) :
    flat m <+: wire n ++ s ↔ m <+: n := by
  constructor
  · intro h
    induction m generalizing n with
    | nil => exact List.nil_prefix
    | cons l m ih =>
      rw [legalLabels_cons] at hm
      cases n with
      | nil =>
        rw [flat_cons, wire_nil] at h
        simp only [List.cons_append, List.cons_prefix_cons] at h
        have h0 := congrArg UInt8.toNat h.1
        rw [label_len_toNat hm.1] at h0
        have h1 := hm.1.1
        have h2 : (0 : UInt8).toNat = 0 := rfl
        omega
      | cons k n =>
        rw [legalLabels_cons] at hn
        rw [flat_cons, wire_cons] at h
        simp only [List.cons_append, List.cons_prefix_cons, List.append_assoc] at h
        have hl : l.length = k.length := by
          have := congrArg UInt8.toNat h.1
          rwa [label_len_toNat hm.1, label_len_toNat hn.1] at this
        have hlk : l = k := by
          have h1 : l <+: k ++ (wire n ++ s) := (List.prefix_append _ _).trans h.2
          have h2 := List.prefix_of_prefix_length_le h1 (List.prefix_append k _) (by omega)
          exact h2.eq_of_length hl
        subst hlk
        rw [List.prefix_append_right_inj] at h
        rw [List.cons_prefix_cons]
        exact ⟨rfl, ih hm.2 hn.2 h.2⟩
  · rintro ⟨r, rfl⟩
    rw [wire_append, List.append_assoc]; exact List.prefix_append _ _

theorem wire_prefix_iff {m n : Name} (hm : legalLabels m) (hn : legalLabels n) (s : Bytes) :
    wire m <+: wire n ++ s ↔ m = n := by
  constructor
  · rintro ⟨t, ht⟩
    exact (wire_append_inj hm hn ht).1
  · rintro rfl; exact List.prefix_append _ _

end Verif
