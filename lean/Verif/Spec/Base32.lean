import Verif.Model.Base

/-!
# Base 32 with the extended hex alphabet as in RFC 4648, section 7, without padding

Five bytes are a number of 40 bits, written with eight digits of 5 bits; fewer bytes at the end are filled with zero bits up to a
whole digit: one byte has two digits, two have four, three have five, four have seven.
-/

namespace Verif.Spec

/-- The digit with value `n`: `0`-`9`, `A`-`V`. -/
def b32Digit (n : Nat) : UInt8 := if n < 10 then UInt8.ofNat (48 + n) else UInt8.ofNat (65 + (n - 10))

/-- The digit `i` (0 is the last) of a number in base 32. -/
def b32Nth (n i : Nat) : UInt8 := b32Digit (n / 32 ^ i % 32)

/-- Five bytes as a number. -/
def five (a b c d e : UInt8) : Nat := a.toNat * 256 ^ 4 + b.toNat * 256 ^ 3 + c.toNat * 256 ^ 2 + d.toNat * 256 + e.toNat

/-- The text of a byte string. -/
def b32Text : Bytes → Bytes
  | a :: b :: c :: d :: e :: r =>
    let n := five a b c d e
    [b32Nth n 7, b32Nth n 6, b32Nth n 5, b32Nth n 4, b32Nth n 3, b32Nth n 2, b32Nth n 1, b32Nth n 0] ++ b32Text r
  | [a, b, c, d] =>
    let n := five a b c d 0
    [b32Nth n 7, b32Nth n 6, b32Nth n 5, b32Nth n 4, b32Nth n 3, b32Nth n 2, b32Nth n 1]
  | [a, b, c] =>
    let n := five a b c 0 0
    [b32Nth n 7, b32Nth n 6, b32Nth n 5, b32Nth n 4, b32Nth n 3]
  | [a, b] =>
    let n := five a b 0 0 0
    [b32Nth n 7, b32Nth n 6, b32Nth n 5, b32Nth n 4]
  | [a] =>
    let n := five a 0 0 0 0
    [b32Nth n 7, b32Nth n 6]
  | [] => []

/-- The value of a digit, in either case; nothing for other characters. -/
def b32Value (c : UInt8) : Option Nat :=
  if 48 ≤ c ∧ c ≤ 57 then some (c.toNat - 48)
  else if 65 ≤ c ∧ c ≤ 86 then some (c.toNat - 65 + 10)
  else if 97 ≤ c ∧ c ≤ 118 then some (c.toNat - 97 + 10)
  else none

/-- The number of up to eight digits, filled with zeros. -/
def eight (v : List Nat) : Nat :=
  v.getD 0 0 * 32 ^ 7 + v.getD 1 0 * 32 ^ 6 + v.getD 2 0 * 32 ^ 5 + v.getD 3 0 * 32 ^ 4 + v.getD 4 0 * 32 ^ 3 + v.getD 5 0 * 32 ^ 2 +
    v.getD 6 0 * 32 + v.getD 7 0

/-- A number of 40 bits as five bytes. -/
def fiveBytes (n : Nat) : Bytes :=
  [UInt8.ofNat (n / 256 ^ 4 % 256), UInt8.ofNat (n / 256 ^ 3 % 256), UInt8.ofNat (n / 256 ^ 2 % 256), UInt8.ofNat (n / 256 % 256),
   UInt8.ofNat (n % 256)]

/-- The bytes that digits with the given values stand for: five for eight, the last digits filled with zeros. -/
def b32Bytes : List Nat → Bytes
  | a :: b :: c :: d :: e :: f :: g :: h :: r => fiveBytes (eight [a, b, c, d, e, f, g, h]) ++ b32Bytes r
  | [] => []
  | v => fiveBytes (eight v)

end Verif.Spec
