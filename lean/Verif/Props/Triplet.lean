import Verif.Lemmas.Triplet

/-!
# C03: packed values
-/

namespace Verif.Props
open Verif Verif.Spec

/-- C03: a packed triple unpacks to itself, and is rejected when followed by anything. -/
theorem C03_triplet_roundtrip (a b c : Nat) (ha : a < 2 ^ 64) (hb : b < 2 ^ 64) (hc : c < 2 ^ 64)
    (rest : Bytes) :
    tripletUnpack (tripletPack a b c) = .ok (a, b, c)
    ∧ (rest ≠ [] → tripletUnpack (tripletPack a b c ++ rest) = .fail) := by
  refine ⟨tripletUnpack_pack ha hb hc, fun h => ?_⟩
  rw [tripletUnpack_pack_append ha hb hc, if_neg h]

example : tripletUnpack (tripletPack 1380139330 (2 ^ 64 - 1) 0)
    = .ok (1380139330, 2 ^ 64 - 1, 0) := by decide +kernel

/-- C03: likewise for pairs. -/
theorem C03_pair_roundtrip (a b : Nat) (ha : a < 2 ^ 64) (hb : b < 2 ^ 64) (rest : Bytes) :
    pairUnpack (pairPack a b) = .ok (a, b)
    ∧ (rest ≠ [] → pairUnpack (pairPack a b ++ rest) = .fail) := by
  refine ⟨pairUnpack_pack ha hb, fun h => ?_⟩
  rw [pairUnpack_pack_append ha hb, if_neg h]

example : pairUnpack (pairPack 1000 200000 ++ [9]) = .fail := by decide +kernel

/-- C03: distinct triples have distinct packed values, and a packed triple fits the 32 bytes that
`dnstable_merge_func` allocates (`/repo/dnstable/merge.c:207`). -/
theorem C03_triplet_injective_and_fits (a b c a' b' c' : Nat)
    (ha : a < 2 ^ 64) (hb : b < 2 ^ 64) (hc : c < 2 ^ 64) :
    (tripletPack a b c = tripletPack a' b' c' → a = a' ∧ b = b' ∧ c = c')
    ∧ (tripletPack a b c).length ≤ 30 := by
  constructor
  · intro h
    rw [tripletPack_eq, tripletPack_eq] at h
    obtain ⟨h1, h⟩ := terminated_prefix_eq (leb_terminated a) (leb_terminated a') h
    obtain ⟨h2, h⟩ := terminated_prefix_eq (s := leb c) (t := leb c') (leb_terminated b)
      (leb_terminated b') h
    exact ⟨leb_inj h1, leb_inj h2, leb_inj h⟩
  · rw [tripletPack_eq]; simp only [List.length_append]
    have := leb_length_le_10 ha
    have := leb_length_le_10 hb
    have := leb_length_le_10 hc
    omega

example : (tripletPack (2 ^ 64 - 1) (2 ^ 64 - 1) (2 ^ 64 - 1)).length = 30 := by decide +kernel

end Verif.Props
