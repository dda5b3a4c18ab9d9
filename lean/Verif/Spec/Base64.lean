import Verif.Model.Base

/-!
# Base 64 as in RFC 4648, section 4

Three bytes are a number of 24 bits, written with four digits of 6 bits; fewer bytes at the end are filled with zero bits, and the
digits that carry nothing are written `=`.
-/

namespace Verif.Spec

/-- The digit with value `n`: `A`-`Z`, `a`-`z`, `0`-`9`, `+`, `/`. -/
def b64Digit (n : Nat) : UInt8 :=
  if n < 26 then UInt8.ofNat (65 + n)
  else if n < 52 then UInt8.ofNat (97 + (n - 26))
  else if n < 62 then UInt8.ofNat (48 + (n - 52))
  else if n = 62 then 43 else 47

/-- The digit `i` (0 is the last) of a number in base 64. -/
def b64Nth (n i : Nat) : UInt8 := b64Digit (n / 64 ^ i % 64)

/-- The text of a byte string. -/
def b64Text : Bytes → Bytes
  | x :: y :: z :: r =>
    let n := x.toNat * 65536 + y.toNat * 256 + z.toNat
    b64Nth n 3 :: b64Nth n 2 :: b64Nth n 1 :: b64Nth n 0 :: b64Text r
  | [x, y] =>
    let n := x.toNat * 65536 + y.toNat * 256
    [b64Nth n 3, b64Nth n 2, b64Nth n 1, 61]
  | [x] =>
    let n := x.toNat * 65536
    [b64Nth n 3, b64Nth n 2, 61, 61]
  | [] => []

/-- The value of a digit; nothing for other characters. -/
def b64Value (c : UInt8) : Option Nat :=
  if 65 ≤ c ∧ c ≤ 90 then some (c.toNat - 65)
  else if 97 ≤ c ∧ c ≤ 122 then some (c.toNat - 97 + 26)
  else if 48 ≤ c ∧ c ≤ 57 then some (c.toNat - 48 + 52)
  else if c = 43 then some 62 else if c = 47 then some 63 else none

/-- The bytes that digits with the given values stand for: three for four, and as many whole bytes as there are at the end. -/
def b64Bytes : List Nat → Bytes
  | a :: b :: c :: d :: r =>
    let n := a * 64 ^ 3 + b * 64 ^ 2 + c * 64 + d
    UInt8.ofNat (n / 65536 % 256) :: UInt8.ofNat (n / 256 % 256) :: UInt8.ofNat (n % 256) :: b64Bytes r
  | [a, b, c] =>
    let n := a * 64 ^ 3 + b * 64 ^ 2 + c * 64
    [UInt8.ofNat (n / 65536 % 256), UInt8.ofNat (n / 256 % 256)]
  | [a, b] =>
    let n := a * 64 ^ 3 + b * 64 ^ 2
    [UInt8.ofNat (n / 65536 % 256)]
  | _ => []

/-- What a text stands for if characters that are no digits are passed over. -/
def b64Read (t : Bytes) : Bytes := b64Bytes (t.filterMap b64Value)

end Verif.Spec
