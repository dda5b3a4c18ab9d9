import Verif.Model.Base

/-!
# Numerals, hexadecimal text and JSON text

What a reader makes of text; nothing here refers to the code that prints it.
-/

namespace Verif.Spec

/-- A decimal digit (ASCII). -/
def IsDigit (c : UInt8) : Prop := 48 ≤ c.toNat ∧ c.toNat ≤ 57

instance (c : UInt8) : Decidable (IsDigit c) := inferInstanceAs (Decidable (_ ∧ _))

/-- The number a string of decimal digits denotes. -/
def numval (s : Bytes) : Nat := s.foldl (fun a c => 10 * a + (c.toNat - 48)) 0

/-- `s` is the canonical decimal numeral of `n`. -/
structure Numeral (s : Bytes) (n : Nat) : Prop where
  nonempty : s ≠ []
  digits : ∀ c ∈ s, IsDigit c
  noLeadingZero : 1 < s.length → s.head? ≠ some 48
  value : numval s = n

/-- `c` is the hexadecimal digit of value `v`, upper or lower case. -/
def IsHex (c : UInt8) (v : Nat) : Prop :=
  "0123456789abcdef".toList[v]? = some (Char.ofNat c.toNat) ∨ "0123456789ABCDEF".toList[v]? = some (Char.ofNat c.toNat)

instance (c : UInt8) (v : Nat) : Decidable (IsHex c v) := inferInstanceAs (Decidable (_ ∨ _))

/-- `s` writes the bytes `bs` in hexadecimal, two digits each, the more significant first. -/
inductive Hex : Bytes → Bytes → Prop where
  | nil : Hex [] []
  | cons {c d : UInt8} {b : UInt8} {s bs : Bytes} :
      IsHex c (b.toNat / 16) → IsHex d (b.toNat % 16) → Hex s bs → Hex (c :: d :: s) (b :: bs)

/-- The value of a hexadecimal digit. -/
def hexVal (c : UInt8) : Option Nat :=
  if 48 ≤ c.toNat ∧ c.toNat ≤ 57 then some (c.toNat - 48)
  else if 65 ≤ c.toNat ∧ c.toNat ≤ 70 then some (c.toNat - 55)
  else if 97 ≤ c.toNat ∧ c.toNat ≤ 102 then some (c.toNat - 87)
  else none

/-- UTF-8 encoding of a code point below 65536. -/
def utf8 (n : Nat) : Bytes :=
  if n < 128 then [UInt8.ofNat n]
  else if n < 2048 then [UInt8.ofNat (192 + n / 64), UInt8.ofNat (128 + n % 64)]
  else [UInt8.ofNat (224 + n / 4096), UInt8.ofNat (128 + n / 64 % 64), UInt8.ofNat (128 + n % 64)]

/-- Reads the rest of a JSON string, after its opening quote (RFC 8259, section 7): its contents, and the
text behind the closing quote.  Surrogates are not accepted; bytes above 127 stand for themselves. -/
def jsonString : Bytes → Option (Bytes × Bytes)
  | [] => none
  | c :: s =>
    if c = 34 then some ([], s)
    else if c = 92 then
      match s with
      | 34 :: s => (jsonString s).map fun r => (34 :: r.1, r.2)
      | 92 :: s => (jsonString s).map fun r => (92 :: r.1, r.2)
      | 47 :: s => (jsonString s).map fun r => (47 :: r.1, r.2)
      | 98 :: s => (jsonString s).map fun r => (8 :: r.1, r.2)
      | 102 :: s => (jsonString s).map fun r => (12 :: r.1, r.2)
      | 110 :: s => (jsonString s).map fun r => (10 :: r.1, r.2)
      | 114 :: s => (jsonString s).map fun r => (13 :: r.1, r.2)
      | 116 :: s => (jsonString s).map fun r => (9 :: r.1, r.2)
      | 117 :: a :: b :: c :: d :: s =>
        match hexVal a, hexVal b, hexVal c, hexVal d with
        | some a, some b, some c, some d =>
          let n := 4096 * a + 256 * b + 16 * c + d
          if 0xD800 ≤ n ∧ n < 0xE000 then none
          else (jsonString s).map fun r => (utf8 n ++ r.1, r.2)
        | _, _, _, _ => none
      | _ => none
    else if c.toNat < 32 then none
    else (jsonString s).map fun r => (c :: r.1, r.2)

end Verif.Spec
