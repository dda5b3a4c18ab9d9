import Verif.Model.Base

/-!
# Hashing words (`/repo/libmy/lookup3.c`)

The key is what lies behind the pointer: reading behind its end is a fault.  Sizes are numbers of 64 bits.
-/

namespace Verif.Lookup3

/-- `rot`, `/repo/libmy/lookup3.c:75`. -/
def rot (x k : UInt32) : UInt32 := (x <<< k) ||| (x >>> (32 - k))

/-- One line of `mix`, such as `/repo/libmy/lookup3.c:123`: of `x`, `y` and `z` it changes `x` and `z`. -/
def line (k x y z : UInt32) : UInt32 × UInt32 :=
  let x := x - z
  let x := x ^^^ rot z k
  (x, z + y)

/-- The variables `a`, `b` and `c` of the functions (`/repo/libmy/lookup3.c:185`, `230`). -/
structure Vars where
  a : UInt32
  b : UInt32
  c : UInt32
  deriving DecidableEq

/-- `mix`, `/repo/libmy/lookup3.c:121-129`. -/
def mix (s : Vars) : Vars :=
  let (a, c) := line 4 s.a s.b s.c
  let (b, a) := line 6 s.b c a
  let (c, b) := line 8 c a b
  let (a, c) := line 16 a b c
  let (b, a) := line 19 b c a
  let (c, b) := line 4 c a b
  ⟨a, b, c⟩

/-- Half a line of `final`, such as `/repo/libmy/lookup3.c:158`: it changes `x`. -/
def half (k x y : UInt32) : UInt32 :=
  let x := x ^^^ y
  x - rot y k

/-- `final`, `/repo/libmy/lookup3.c:156-165`. -/
def final (s : Vars) : Vars :=
  let c := half 14 s.c s.b
  let a := half 11 s.a c
  let b := half 25 s.b a
  let c := half 16 c b
  let a := half 4 a c
  let b := half 14 b a
  let c := half 24 c b
  ⟨a, b, c⟩

/-- The loop of `my_hashword`, `/repo/libmy/lookup3.c:191-199`. -/
def loop : List UInt32 → Nat → Vars → Out (List UInt32 × Nat × Vars)
  | x :: y :: z :: k, length, s =>
    if length > 3 then loop k (length - 3) (mix ⟨s.a + x, s.b + y, s.c + z⟩) else .ok (x :: y :: z :: k, length, s)
  | k, length, s => if length > 3 then .fault .oobRead else .ok (k, length, s)

/-- `c`, `b` or `a` plus a word of the key (`/repo/libmy/lookup3.c:204-206`, `250-252`). -/
def plus (v : UInt32) (k : List UInt32) (i : Nat) : Out UInt32 :=
  match k[i]? with
  | some x => .ok (v + x)
  | none => .fault .oobRead

/-- The switch of `my_hashword`, `/repo/libmy/lookup3.c:202-210`. -/
def last (k : List UInt32) (length : Nat) (s : Vars) : Out Vars :=
  if length = 0 then .ok s
  else do
    let c ← (if length = 3 then plus s.c k 2 else .ok s.c)
    let b ← (if length ≥ 2 then plus s.b k 1 else .ok s.b)
    let a ← plus s.a k 0
    .ok (final ⟨a, b, c⟩)

/-- `my_hashword`, `/repo/libmy/lookup3.c:180-213`. -/
def hashword (k : List UInt32) (length : Nat) (initval : UInt32) : Out UInt32 := do
  let v : UInt32 := (0xdeadbeef : UInt32) + (UInt32.ofNat length <<< 2) + initval
  let (k, length, s) ← loop k length ⟨v, v, v⟩
  let s ← last k length s
  .ok s.c

/-- The loop of `my_hashword2`, `/repo/libmy/lookup3.c:237-245`. -/
def loop2 : List UInt32 → Nat → Vars → Out (List UInt32 × Nat × Vars)
  | x :: y :: z :: k, length, s =>
    if length > 3 then loop2 k (length - 3) (mix ⟨s.a + x, s.b + y, s.c + z⟩) else .ok (x :: y :: z :: k, length, s)
  | k, length, s => if length > 3 then .fault .oobRead else .ok (k, length, s)

/-- The switch of `my_hashword2`, `/repo/libmy/lookup3.c:248-256`. -/
def last2 (k : List UInt32) (length : Nat) (s : Vars) : Out Vars :=
  if length = 0 then .ok s
  else do
    let c ← (if length = 3 then plus s.c k 2 else .ok s.c)
    let b ← (if length ≥ 2 then plus s.b k 1 else .ok s.b)
    let a ← plus s.a k 0
    .ok (final ⟨a, b, c⟩)

/-- `my_hashword2`, `/repo/libmy/lookup3.c:224-259`: what it stores in `pc` and `pb`. -/
def hashword2 (k : List UInt32) (length : Nat) (pc pb : UInt32) : Out (UInt32 × UInt32) := do
  let v : UInt32 := (0xdeadbeef : UInt32) + UInt32.ofNat (length * 4 % 2 ^ 64) + pc
  let (k, length, s) ← loop2 k length ⟨v, v, v + pb⟩
  let s ← last2 k length s
  .ok (s.c, s.b)

end Verif.Lookup3
