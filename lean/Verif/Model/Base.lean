/-!
# Base vocabulary of the model

Bytes, byte strings and the outcome of a C function.  See DESIGN.md section 2.
-/

namespace Verif

/-- A byte string: the model of a `const uint8_t *` together with its length (the object from the
pointer to its end).  Cites the buffer arguments used throughout `/repo/dnstable/dnstable-private.h:82-112`. -/
abbrev Bytes := List UInt8

/-- What can go wrong in the C code beyond an ordinary failure return.  None of these is assumed
away: reaching one is an observable outcome of the model.  (`assert`: `/repo/dnstable/merge.c:133,195`;
loops: `/repo/dnstable/entry.c:662-684`; shifts: `/repo/libmy/ip_arith.h`; `longjmp`:
`/repo/dnstable/query_mtbl.c:506`.) -/
inductive Fault where
  /-- read outside the object -/
  | oobRead
  /-- write outside the object -/
  | oobWrite
  /-- failed `assert` (the process aborts) -/
  | abort
  /-- a loop that makes no progress -/
  | diverge
  /-- shift count out of range or signed overflow -/
  | badShift
  /-- `longjmp` to an environment whose function has returned (or was never set) -/
  | staleJump
  /-- dereference of a NULL pointer -/
  | nullDeref
  /-- `free` of a pointer to no live block: released before, or never allocated -/
  | badFree
  /-- use of memory after it was released -/
  | useAfterFree
deriving DecidableEq, Repr

/-- Outcome of a C function: a value, an ordinary failure (`NULL`, `dnstable_res_failure`,
`mtbl_res_failure`; `/repo/dnstable/dnstable.h`), or a fault. -/
inductive Out (α : Type) where
  | ok (a : α)
  | fail
  | fault (f : Fault)
deriving DecidableEq, Repr

namespace Out

/-- Sequencing of C statements; failures and faults end the function.  (Glue of the model, no
counterpart in `/repo/`.) -/
def bind {α β : Type} : Out α → (α → Out β) → Out β
  | ok a, f => f a
  | fail, _ => fail
  | fault e, _ => fault e

instance : Monad Out where
  pure := Out.ok
  bind := Out.bind

@[simp] theorem ok_bind {α β : Type} (a : α) (f : α → Out β) : (Out.ok a >>= f) = f a := rfl
@[simp] theorem fail_bind {α β : Type} (f : α → Out β) : ((Out.fail : Out α) >>= f) = Out.fail := rfl
@[simp] theorem fault_bind {α β : Type} (e : Fault) (f : α → Out β) :
    ((Out.fault e : Out α) >>= f) = Out.fault e := rfl
@[simp] theorem pure_eq {α : Type} (a : α) : (pure a : Out α) = Out.ok a := rfl

/-- The outcome is not a fault (`enum dnstable_res`, `/repo/dnstable/dnstable.h:36-40`, only knows
success, failure and timeout). -/
def safe {α : Type} : Out α → Prop
  | fault _ => False
  | _ => True

/-- `assert(c)`: abort the process unless `c`.  (`<assert.h>` as used in `/repo/dnstable/merge.c:195`.) -/
def assert (c : Bool) : Out Unit := if c then ok () else fault .abort

@[simp] theorem assert_true : assert true = ok () := rfl
@[simp] theorem assert_false : assert false = fault .abort := rfl

/-- Turn "no value" into the ordinary failure (`dnstable_res_failure`, `/repo/dnstable/dnstable.h:37`). -/
def ofOption {α : Type} : Option α → Out α
  | some a => ok a
  | none => fail

end Out

/-- `buf[i]`: read one byte of an object; reading outside is a fault
(as in `/repo/dnstable/entry.c:824`). -/
def byteAt (buf : Bytes) (i : Nat) : Out UInt8 :=
  match buf[i]? with
  | some b => .ok b
  | none => .fault .oobRead

theorem byteAt_lt {buf : Bytes} {i : Nat} (h : i < buf.length) : byteAt buf i = .ok buf[i] := by
  simp [byteAt, List.getElem?_eq_getElem h]

end Verif
