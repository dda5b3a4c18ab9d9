import Verif.Model.Base

/-!
# Replacing and quoting
-/

namespace Verif.Spec

/-- `t` is `s` with every occurrence of `old` replaced by `new`, from the left: an occurrence is one that begins first in what is
left. -/
inductive Replaced (old new : Bytes) : Bytes → Bytes → Prop where
  | none {s} : ¬ old <:+: s → Replaced old new s s
  | some {a s t} : ¬ old <:+: a ++ old.dropLast → Replaced old new s t → Replaced old new (a ++ old ++ s) (a ++ new ++ t)

/-- The value of a hexadecimal digit in lower case. -/
def lowHexValue (c : UInt8) : Option UInt8 :=
  if 48 ≤ c ∧ c ≤ 57 then some (c - 48) else if 97 ≤ c ∧ c ≤ 102 then some (c - 87) else none

/-- What stands between the quotes, read again: `\"` is a quote, `\x` and two digits a byte, and everything else itself. -/
def readQuoted : Bytes → Option Bytes
  | [] => some []
  | 92 :: 34 :: s => (readQuoted s).map (34 :: ·)
  | 92 :: 120 :: a :: b :: s =>
    match lowHexValue a, lowHexValue b with
    | some x, some y => (readQuoted s).map ((16 * x + y) :: ·)
    | _, _ => none
  | c :: s => (readQuoted s).map (c :: ·)

end Verif.Spec
