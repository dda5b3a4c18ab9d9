import Verif.Lemmas.Names

/-!
# C12: reversed names
-/

namespace Verif.Props
open Verif Verif.Spec

/-- C12: reversing a stored name always succeeds on a legal name, keeps its length, and reversing
twice gives the original bytes. -/
theorem C12_reverse_involution (n : Name) (h : legalName n) :
    ∃ r, reverseName (wire n) = .ok r ∧ r.length = (wire n).length
      ∧ reverseName r = .ok (wire n) := by
  refine ⟨wire n.reverse, reverseName_wire h.1, wire_reverse_length n, ?_⟩
  rw [reverseName_wire (legalLabels_reverse.mpr h.1), List.reverse_reverse]

example : reverseName (wire [[119, 119, 119], [97], [99, 111, 109]])
    = .ok [3, 99, 111, 109, 1, 97, 3, 119, 119, 119, 0] := by decide +kernel

/-- C12: different legal names have different reversed forms. -/
theorem C12_reverse_injective (m n : Name) (hm : legalName m) (hn : legalName n)
    (h : reverseName (wire m) = reverseName (wire n)) : m = n := by
  rw [reverseName_wire hm.1, reverseName_wire hn.1] at h
  have := wire_inj (legalLabels_reverse.mpr hm.1) (legalLabels_reverse.mpr hn.1) (Out.ok.inj h)
  simpa using this

example : reverseName (wire [[1, 97]]) ≠ reverseName (wire [[97]]) := by decide +kernel

/-- C12: a name is at or below a domain exactly when its reversed stored form starts with the
reversed domain's labels (the reversed form without the terminating root label). -/
theorem C12_subdomain_iff_prefix (sub dom : Name) (hs : legalName sub) (hd : legalName dom)
    (rs rd : Bytes) (h1 : reverseName (wire sub) = .ok rs) (h2 : reverseName (wire dom) = .ok rd) :
    underOrEq sub dom ↔ rd.take (rd.length - 1) <+: rs := by
  rw [reverseName_wire hs.1] at h1
  rw [reverseName_wire hd.1] at h2
  have h1 := Out.ok.inj h1
  have h2 := Out.ok.inj h2
  subst h1 h2
  have : (wire dom.reverse).take ((wire dom.reverse).length - 1) = flat dom.reverse := by
    simp [wire]
  rw [this]
  have h3 := flat_prefix_iff (legalLabels_reverse.mpr hd.1) (legalLabels_reverse.mpr hs.1) []
  rw [List.append_nil] at h3
  rw [h3]
  unfold underOrEq
  constructor
  · rintro ⟨f, rfl⟩; rw [List.reverse_append]; exact List.prefix_append _ _
  · rintro ⟨t, ht⟩
    refine ⟨t.reverse, ?_⟩
    have := congrArg List.reverse ht
    simpa using this.symm

/-- `www.a.com` lies under `com`, `aXcom` does not: the length octets keep labels apart. -/
example : [3, 99, 111, 109] <+: [3, 99, 111, 109, 1, 97, 3, 119, 119, 119, 0]
    ∧ ¬ [3, 99, 111, 109] <+: wire [[97, 120, 99, 111, 109]] := by decide

end Verif.Props
