import Verif.Model.Base

/-!
# Specification: lexicographic order of byte strings
-/

namespace Verif.Spec

/-- `a` sorts strictly before `b`: first differing byte decides, a proper prefix sorts first. -/
def lexLt : Bytes → Bytes → Bool
  | _, [] => false
  | [], _ :: _ => true
  | a :: as, b :: bs => decide (a.toNat < b.toNat) || (decide (a = b) && lexLt as bs)

/-- `a` sorts before `b` or equals it. -/
def lexLe (a b : Bytes) : Bool := !lexLt b a

end Verif.Spec
