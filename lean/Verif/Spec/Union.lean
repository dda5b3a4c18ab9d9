import Verif.Model.Base

/-!
# Specification: sets of record types

RFC 4034 section 4.1.2 type bitmaps and the one- and two-byte short forms of dnstable-encoding(5),
as plain data, with membership.
-/

namespace Verif.Spec

/-- Bit `o` of a bitmap, most significant bit of byte 0 first; bits beyond the end are clear. -/
def bitSet (bits : Bytes) (o : Nat) : Bool :=
  match bits[o / 8]? with
  | some b => b.toNat.testBit (7 - o % 8)
  | none => false

/-- One window block. -/
structure Block where
  window : UInt8
  bits : Bytes
deriving DecidableEq, Repr

/-- A stored type set in one of its three forms. -/
inductive TypeSet where
  | byte (a : UInt8)
  | word (lo hi : UInt8)
  | bitmap (blocks : List Block)
deriving DecidableEq, Repr

/-- Wire form of one block. -/
def Block.bytes (b : Block) : Bytes := b.window :: UInt8.ofNat b.bits.length :: b.bits

namespace TypeSet

/-- Wire form. -/
def bytes : TypeSet → Bytes
  | byte a => [a]
  | word lo hi => [lo, hi]
  | bitmap bl => bl.flatMap Block.bytes

/-- Membership of a 16-bit type. -/
def has (t : Nat) : TypeSet → Bool
  | byte a => t == a.toNat
  | word lo hi => t == lo.toNat + 256 * hi.toNat
  | bitmap bl => bl.any fun b => b.window.toNat == t / 256 && bitSet b.bits (t % 256)

/-- Well-formed: at least one block, windows strictly increasing, 1 to 32 bytes per block.
(Trailing zero bytes and all-zero blocks, which RFC 4034 forbids, are tolerated.) -/
def wf : TypeSet → Prop
  | bitmap bl => bl ≠ [] ∧ (bl.map (·.window.toNat)).Pairwise (· < ·)
      ∧ ∀ b ∈ bl, 1 ≤ b.bits.length ∧ b.bits.length ≤ 32
  | _ => True

instance (s : TypeSet) : Decidable s.wf := by
  unfold wf; split <;> exact inferInstance

end TypeSet

/-- A byte with bit `7 - j` set iff `f j`. -/
def byteOf (f : Nat → Bool) : UInt8 :=
  UInt8.ofNat ((f 0).toNat * 128 + (f 1).toNat * 64 + (f 2).toNat * 32 + (f 3).toNat * 16
    + (f 4).toNat * 8 + (f 5).toNat * 4 + (f 6).toNat * 2 + (f 7).toNat)

/-- The 32 bitmap bytes of window `w` of the set `p`. -/
def winBytes (p : Nat → Bool) (w : Nat) : Bytes :=
  (List.range 32).map fun i => byteOf fun j => p (256 * w + 8 * i + j)

/-- Drop trailing zero bytes. -/
def trim : Bytes → Bytes
  | [] => []
  | a :: as => if trim as = [] ∧ a = 0 then [] else a :: trim as

/-- The canonical blocks of the windows below `n`: no empty block, no trailing zero byte. -/
def canonBlocks (p : Nat → Bool) (n : Nat) : List Block :=
  (List.range n).filterMap fun w =>
    if trim (winBytes p w) = [] then none
    else some ⟨UInt8.ofNat w, trim (winBytes p w)⟩

/-- The canonical (RFC 4034) bitmap of the set of all `t < 65536` with `p t`. -/
def canon (p : Nat → Bool) : Bytes := (canonBlocks p 256).flatMap Block.bytes

/-- The strictly increasing list of the types in `p`. -/
@[irreducible] def sortedTypes (p : Nat → Bool) : List Nat := (List.range 65536).filter p

/-- The value a writer following dnstable-encoding(5) stores for the set `p`: one byte or two bytes
(little-endian) for a single type, else the canonical bitmap. -/
def writerValue (p : Nat → Bool) : Bytes :=
  match sortedTypes p with
  | [t] => if t < 256 then [UInt8.ofNat t] else [UInt8.ofNat (t % 256), UInt8.ofNat (t / 256)]
  | _ => canon p

end Verif.Spec
