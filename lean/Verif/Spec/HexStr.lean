import Verif.Model.Base

/-!
# Specification: hexadecimal text
-/

namespace Verif.Spec

/-- The value of a hexadecimal digit, in the given case. -/
def hexDigit (upper : Bool) (c : UInt8) : Option Nat :=
  if 48 ≤ c ∧ c ≤ 57 then some (c.toNat - 48)
  else if upper then if 65 ≤ c ∧ c ≤ 70 then some (c.toNat - 55) else none
  else if 97 ≤ c ∧ c ≤ 102 then some (c.toNat - 87) else none

/-- `HexOf upper bs t`: the text `t` has two digits for each of the bytes, the one of higher value first. -/
inductive HexOf (upper : Bool) : Bytes → Bytes → Prop where
  | nil : HexOf upper [] []
  | cons {b c d : UInt8} {bs t : Bytes} {x y : Nat} : hexDigit upper c = some x → hexDigit upper d = some y →
      b.toNat = 16 * x + y → HexOf upper bs t → HexOf upper (b :: bs) (c :: d :: t)

/-- The number that a text of hexadecimal digits stands for. -/
def hexNumber (upper : Bool) (t : Bytes) : Option Nat :=
  t.foldl (fun a c => a.bind fun v => (hexDigit upper c).map (16 * v + ·)) (some 0)

end Verif.Spec
