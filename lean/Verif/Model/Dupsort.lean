import Verif.Model.Triplet
import Verif.Model.Entry

/-! # The order of values of equal keys (`/repo/dnstable/query.c:1828-1869`) -/

namespace Verif

/-- `dnstable_dupsort_func`, `/repo/dnstable/query.c:1838-1869`. -/
def dupsortFunc (key val0 val1 : Bytes) : Out Ordering :=
  match key with
  | [] => .ok .eq
  | t :: _ =>
    if t.toNat = tRRSET ∨ t.toNat = tRDATA then
      if val0.length = 0 ∨ val1.length = 0 then .fault .abort
      else
        match tripletUnpack val0 with
        | .fault f => .fault f
        | .fail => .fault .abort
        | .ok (first0, last0, _) =>
          match tripletUnpack val1 with
          | .fault f => .fault f
          | .fail => .fault .abort
          | .ok (first1, last1, _) =>
            if first0 < first1 then .ok .lt
            else if first0 > first1 then .ok .gt
            else if last0 < last1 then .ok .lt
            else if last0 > last1 then .ok .gt
            else .ok .eq
    else .ok .eq

end Verif
