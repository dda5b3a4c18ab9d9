import Verif.Lemmas.Varint
import Verif.Model.Triplet

/-! Helper lemmas about packed values. -/

namespace Verif
open Spec

theorem tripletPack_eq (a b c : Nat) : tripletPack a b c = leb a ++ (leb b ++ leb c) := by
  simp [tripletPack, encode64_eq_leb]

theorem pairPack_eq (a b : Nat) : pairPack a b = leb a ++ leb b := by
  simp [pairPack, encode64_eq_leb]

theorem tripletUnpack_pack_append {a b c : Nat} (ha : a < 2 ^ 64) (hb : b < 2 ^ 64)
    (hc : c < 2 ^ 64) (rest : Bytes) :
    tripletUnpack (tripletPack a b c ++ rest)
      = if rest = [] then .ok (a, b, c) else .fail := by
  rw [tripletPack_eq]
  unfold tripletUnpack
  simp only [List.append_assoc]
  rw [decode64_leb ha]
  simp only [Out.ok_bind, List.drop_left]
  rw [decode64_leb hb]
  simp only [Out.ok_bind]
  have : (leb a ++ (leb b ++ (leb c ++ rest))).drop ((leb a).length + (leb b).length)
      = leb c ++ rest := by
    rw [← List.drop_drop, List.drop_left, List.drop_left]
  rw [this, decode64_leb hc]
  simp only [Out.ok_bind, List.length_append]
  cases rest with
  | nil => simp; omega
  | cons x xs => simp; omega

theorem tripletUnpack_pack {a b c : Nat} (ha : a < 2 ^ 64) (hb : b < 2 ^ 64) (hc : c < 2 ^ 64) :
    tripletUnpack (tripletPack a b c) = .ok (a, b, c) := by
  have := tripletUnpack_pack_append ha hb hc []
  simpa using this

theorem pairUnpack_pack_append {a b : Nat} (ha : a < 2 ^ 64) (hb : b < 2 ^ 64) (rest : Bytes) :
    pairUnpack (pairPack a b ++ rest) = if rest = [] then .ok (a, b) else .fail := by
  rw [pairPack_eq]
  unfold pairUnpack
  simp only [List.append_assoc]
  rw [decode64_leb ha]
  simp only [Out.ok_bind, List.drop_left]
  rw [decode64_leb hb]
  simp only [Out.ok_bind, List.length_append]
  cases rest with
  | nil => simp
  | cons x xs => simp

theorem pairUnpack_pack {a b : Nat} (ha : a < 2 ^ 64) (hb : b < 2 ^ 64) :
    pairUnpack (pairPack a b) = .ok (a, b) := by
  have := pairUnpack_pack_append ha hb []
  simpa using this

theorem tripletPack_length_pos (a b c : Nat) : 0 < (tripletPack a b c).length := by
  rw [tripletPack_eq]; simp only [List.length_append]
  have := leb_length_pos a; omega

theorem tripletPack_ne_nil (a b c : Nat) : tripletPack a b c ≠ [] :=
  List.length_pos_iff.mp (tripletPack_length_pos a b c)

theorem pairPack_ne_nil (a b : Nat) : pairPack a b ≠ [] := by
  rw [pairPack_eq]; simp [leb_ne_nil]

end Verif
