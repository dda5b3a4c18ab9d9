import Verif.Model.Base

/-!
# Growable arrays (`/repo/libmy/vector.h`, `/repo/libmy/ubuf.h`, `/repo/libmy/my_alloc.h`)

The other files of the model take a `ubuf` for a list of bytes.  Here it is what it is in memory: a block of
storage with a size, a capacity and a pointer behind the last element.  `size_t` arithmetic wraps around.

Elements are values of a type `α` whose size in bytes is `sz`; storage is a list of elements, `none` being one that has
never been written.
-/

namespace Verif

/-- `SIZE_MAX + 1` where `size_t` has 64 bits; see `/repo/libmy/vector.h:25`. -/
def sizeMod : Nat := 2 ^ 64

/-- `my_malloc`, `/repo/libmy/my_alloc.h:16-22`.  `grant` tells which requests the C library serves. -/
def myMalloc {α : Type} (grant : Nat → Bool) (sz bytes : Nat) : Out (List (Option α)) :=
  if grant bytes then .ok (List.replicate (bytes / sz) none) else .fault .abort

/-- `my_realloc`, `/repo/libmy/my_alloc.h:24-30`: the elements common to both sizes are kept. -/
def myRealloc {α : Type} (grant : Nat → Bool) (sz : Nat) (v : List (Option α)) (bytes : Nat) : Out (List (Option α)) :=
  if grant bytes then .ok (v.take (bytes / sz) ++ List.replicate (bytes / sz - v.length) none) else .fault .abort

/-- `struct name##__vector`, `/repo/libmy/vector.h:22-26`; the pointer `_p` is an index into `_v`. -/
structure Vec (α : Type) where
  v : List (Option α)
  p : Nat
  n : Nat
  nAlloced : Nat
  hint : Nat

namespace Vec
variable {α : Type}

/-- Assignment to consecutive elements of the storage (`_v[_n] = elem`, `memcpy`, `memset`):
`/repo/libmy/vector.h:90,99`. -/
def store (v : List (Option α)) (i : Nat) (xs : List (Option α)) : Out (List (Option α)) :=
  if i + xs.length ≤ v.length then .ok (v.take i ++ xs ++ v.drop (i + xs.length)) else .fault .oobWrite

/-- `name##_init`, `/repo/libmy/vector.h:29-38`; `hint` is an `unsigned`. -/
def init (grant : Nat → Bool) (sz hint : Nat) : Out (Vec α) := do
  let hint := if hint % 2 ^ 32 = 0 then 1 else hint % 2 ^ 32
  let v ← myMalloc grant sz (hint * sz % sizeMod)
  .ok ⟨v, 0, 0, hint, hint⟩

/-- `name##_reinit`, `/repo/libmy/vector.h:41-48`; the old storage is not freed. -/
def reinit (grant : Nat → Bool) (sz hint : Nat) (_ : Vec α) : Out (Vec α) := do
  let hint := if hint % 2 ^ 32 = 0 then 1 else hint % 2 ^ 32
  let v ← myMalloc grant sz (hint * sz % sizeMod)
  .ok ⟨v, 0, 0, hint, hint⟩

/-- `name##_detach`, `/repo/libmy/vector.h:51-59`: the storage and the size handed out, and what is left. -/
def detach (grant : Nat → Bool) (sz : Nat) (u : Vec α) : Out ((List (Option α) × Nat) × Vec α) := do
  let v ← myMalloc grant sz (u.hint * sz % sizeMod)
  .ok ((u.v, u.n), ⟨v, 0, 0, u.hint, u.hint⟩)

/-- One turn of the loops that enlarge the storage, `/repo/libmy/vector.h:73-76,86-89`. -/
def grow (grant : Nat → Bool) (sz : Nat) (u : Vec α) : Out (Vec α) := do
  let a := u.nAlloced * 2 % sizeMod
  let v ← myRealloc grant sz u.v (a * sz % sizeMod)
  .ok { u with v := v, p := u.n, nAlloced := a }

/-- A loop around `grow`, with at most `fuel` turns: `/repo/libmy/vector.h:73-77,84-89`. -/
def growWhile (grant : Nat → Bool) (sz : Nat) (more : Vec α → Bool) : Nat → Vec α → Out (Vec α)
  | 0, u => if more u then .fault .diverge else .ok u
  | fuel + 1, u => if more u then (do let u ← u.grow grant sz; growWhile grant sz more fuel u) else .ok u

/-- `name##_reserve`, `/repo/libmy/vector.h:70-78`.  65 turns are enough: if they are not, the number of elements
allocated has become 0 and stays so. -/
def reserve (grant : Nat → Bool) (sz k : Nat) (u : Vec α) : Out (Vec α) :=
  growWhile grant sz (fun u => decide (k > (u.nAlloced + sizeMod - u.n) % sizeMod)) 65 u

/-- `name##_add`, `/repo/libmy/vector.h:81-93`. -/
def add (grant : Nat → Bool) (sz : Nat) (x : α) (u : Vec α) : Out (Vec α) := do
  let u ← growWhile grant sz (fun u => decide ((u.n + 1) % sizeMod > u.nAlloced)) 65 u
  let v ← store u.v u.n [some x]
  .ok { u with v := v, n := (u.n + 1) % sizeMod, p := (u.n + 1) % sizeMod }

/-- `name##_append`, `/repo/libmy/vector.h:95-102`. -/
def append (grant : Nat → Bool) (sz : Nat) (xs : List α) (u : Vec α) : Out (Vec α) := do
  let u ← u.reserve grant sz xs.length
  let v ← store u.v u.n (xs.map some)
  .ok { u with v := v, n := (u.n + xs.length) % sizeMod, p := (u.n + xs.length) % sizeMod }

/-- The elements up to the size, as read through `name##_data`, `/repo/libmy/vector.h:156-160`; `none` if one of them
has never been written. -/
def data (u : Vec α) : Option (List α) := (u.v.take u.n).mapM id

/-- `name##_extend`, `/repo/libmy/vector.h:104-108`, with another array. -/
def extend (grant : Nat → Bool) (sz : Nat) (other u : Vec α) : Out (Vec α) :=
  match other.data with
  | some xs => if xs.length = other.n then u.append grant sz xs else .fault .oobRead
  | none => .fault .oobRead

/-- `name##_reset`, `/repo/libmy/vector.h:110-120`. -/
def reset (grant : Nat → Bool) (sz : Nat) (u : Vec α) : Out (Vec α) := do
  if u.nAlloced > u.hint then do
    let v ← myRealloc grant sz u.v (u.hint * sz % sizeMod)
    .ok { u with v := v, n := 0, p := 0, nAlloced := u.hint }
  else .ok { u with n := 0, p := 0 }

/-- `name##_clip`, `/repo/libmy/vector.h:122-129`. -/
def clip (k : Nat) (u : Vec α) : Vec α := if k < u.n then { u with n := k, p := k } else u

/-- `name##_value`, `/repo/libmy/vector.h:143-148`. -/
def value (i : Nat) (u : Vec α) : Out α :=
  if i < u.n then match u.v[i]? with | some (some x) => .ok x | _ => .fault .oobRead else .fault .abort

/-- Elements written through the pointer `name##_ptr`, `/repo/libmy/vector.h:150-154`. -/
def poke (xs : List α) (u : Vec α) : Out (Vec α) := do
  let v ← store u.v u.p (xs.map some)
  .ok { u with v := v }

/-- `name##_advance`, `/repo/libmy/vector.h:162-168`. -/
def advance (x : Nat) (u : Vec α) : Out (Vec α) :=
  if x ≤ (u.nAlloced + sizeMod - u.n) % sizeMod then
    .ok { u with n := (u.n + x) % sizeMod, p := (u.n + x) % sizeMod }
  else .fault .abort

end Vec

/-- `ubuf`, `/repo/libmy/ubuf.h:30`. -/
abbrev Ubuf := Vec UInt8

namespace Ubuf

/-- `ubuf_new`, `/repo/libmy/ubuf.h:35-39`. -/
def new (grant : Nat → Bool) : Out Ubuf := Vec.init grant 1 64

/-- `ubuf_dup_cstr`, `/repo/libmy/ubuf.h:41-48`. -/
def dupCstr (grant : Nat → Bool) (s : Bytes) : Out Ubuf := do
  let u ← Vec.init grant 1 (s.length + 1)
  Vec.append grant 1 s u

/-- The first statement of `ubuf_add_cstr` and `ubuf_add_fmt`, and `ubuf_rstrip`:
`/repo/libmy/ubuf.h:53-54,81-82,99-107`. -/
def rstrip (c : UInt8) (u : Ubuf) : Out Ubuf :=
  if u.n > 0 then do
    let x ← u.value (u.n - 1)
    .ok (if x = c then u.clip (u.n - 1) else u)
  else .ok u

/-- `ubuf_add_cstr`, `/repo/libmy/ubuf.h:50-56`; `s` is the string without its terminator. -/
def addCstr (grant : Nat → Bool) (s : Bytes) (u : Ubuf) : Out Ubuf := do
  let u ← rstrip 0 u
  Vec.append grant 1 s u

/-- `ubuf_cterm`, `/repo/libmy/ubuf.h:58-66`. -/
def cterm (grant : Nat → Bool) (u : Ubuf) : Out Ubuf :=
  if u.n = 0 then Vec.append grant 1 [0] u
  else do
    let x ← u.value (u.n - 1)
    if x ≠ 0 then Vec.append grant 1 [0] u else .ok u

/-- `ubuf_add_fmt`, `/repo/libmy/ubuf.h:75-97`; `s` is what `vsnprintf` makes of the arguments, which it refuses if it
is longer than an `int` can tell. -/
def addFmt (grant : Nat → Bool) (s : Bytes) (u : Ubuf) : Out Ubuf := do
  let u ← rstrip 0 u
  if s.length < 2 ^ 31 then do
    let u ← u.reserve grant 1 ((u.n + s.length + 1) % sizeMod)
    let u ← u.poke (s ++ [0])
    u.advance s.length
  else .fault .abort

end Ubuf

end Verif
