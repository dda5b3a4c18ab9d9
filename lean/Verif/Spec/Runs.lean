import Verif.Spec.Tables

/-!
# Specification: sequences of calls on an iterator

A client calls `next` and `seek` in any order.  Every call comes with its own, arbitrary state of the
world (clock, deadline, counters), so whatever happens between two calls is covered.
-/

namespace Verif.Spec

/-- A call on an iterator. -/
inductive Op where
  | next (w : World)
  | seek (k : Bytes) (w : World)

/-- The world in which the call is made. -/
def Op.world : Op → World
  | .next w => w
  | .seek _ w => w

/-- An answer. -/
inductive Ans where
  | got (r : Res)
  | sought (ok : Bool)
deriving DecidableEq, Repr

/-- `Serves t lo L ops as`: the answers are those of a cursor in front of the rows `L`: each row is
delivered once and in order, the end is reported when and only when nothing is left, a seek skips
exactly the rows below its key and reports failure only when nothing is left.  With `t`, any `next`
may instead report a timeout, which loses nothing.  `lo` is the position known to the client: the
last key delivered or sought.  Nothing is said from a seek on that does not go forward from there (no
code in the library makes one). -/
inductive Serves (t : Bool) : Option Bytes → Table → List Op → List Ans → Prop where
  | nil {lo L} : Serves t lo L [] []
  | item {lo kv L w ops as} : Serves t (some kv.1) L ops as →
      Serves t lo (kv :: L) (.next w :: ops) (.got (.item kv) :: as)
  | done {lo w ops as} : Serves t none [] ops as →
      Serves t lo [] (.next w :: ops) (.got .done :: as)
  | timeout {lo L w ops as} : t = true → Serves t none L ops as →
      Serves t lo L (.next w :: ops) (.got .timeout :: as)
  | seek {lo L k w ok ops as} : lexLt lo k = true →
      (ok = false → L.filter (fun kv => lexLe k kv.1) = []) →
      Serves t (some k) (L.filter fun kv => lexLe k kv.1) ops as →
      Serves t (some lo) L (.seek k w :: ops) (.sought ok :: as)
  | unspecified {lo L k w ops as} : (∀ b, lo = some b → lexLt b k = false) →
      Serves t lo L (.seek k w :: ops) as

/-- The answers of a machine to a sequence of calls. -/
def answers (M : Mach) : M.St → List Op → List Ans
  | _, [] => []
  | s, .next w :: ops => .got (M.next s w).1 :: answers M (M.next s w).2.1 ops
  | s, .seek k w :: ops => .sought (M.seek s k w).1 :: answers M (M.seek s k w).2.1 ops

/-- A world with the given clock reading, deadline and validity of the jump environment. -/
def simpleWorld (now deadline : Int) (armed : Bool) : World :=
  ⟨fun _ => ⟨now, 0⟩, 0, ⟨deadline, 0⟩, armed, 0, fun _ => {}⟩

end Verif.Spec
