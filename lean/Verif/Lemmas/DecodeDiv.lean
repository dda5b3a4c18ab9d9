import Verif.Lemmas.NoDiv

/-!
# Whether decoding an entry ends depends on its key only
-/

namespace Verif
open Spec

theorem NoDiv.lenUname (b : Bytes) : NoDiv (lenUname b) := by
  unfold Verif.lenUname
  split
  · exact NoDiv.ok _
  · exact NoDiv.fail

theorem NoDiv.decodeName (b : Bytes) : NoDiv (decodeName b) := by
  refine (NoDiv.lenUname b).bind fun n => (NoDiv.reverseName _).bind fun r => ?_
  split
  · simp [NoDiv]
  · exact NoDiv.ok _

theorem NoDiv.decodeValTriplet (e : Entry) (v : Bytes) : NoDiv (decodeValTriplet e v) :=
  (NoDiv.tripletUnpack v).bind fun _ => NoDiv.ok _

theorem NoDiv.decodeRdata (e : Entry) (b : Bytes) : NoDiv (decodeRdata e b) := by
  unfold Verif.decodeRdata
  split
  · exact NoDiv.fail
  · refine (NoDiv.byteAt _ _).bind fun lo => (NoDiv.byteAt _ _).bind fun hi => ?_
    simp only
    split
    · exact NoDiv.fail
    · refine (NoDiv.varintDecode32 _).bind fun nt => ?_
      split
      · exact NoDiv.fail
      · exact (NoDiv.decodeName _).bind fun _ => NoDiv.ok _

theorem NoDiv.decodeVersion (e : Entry) (b v : Bytes) : NoDiv (decodeVersion e b v) := by
  unfold Verif.decodeVersion
  split
  · split
    · exact NoDiv.fail
    · refine (NoDiv.varintDecode32 _).bind fun nv => ?_
      simp only
      split
      · exact NoDiv.ok _
      · exact NoDiv.fail
  · exact NoDiv.fail

theorem diverge_key {k val : Bytes} (h : entryDecode k val = .fault .diverge) (val' : Bytes) :
    entryDecode k val' = .fault .diverge := by
  have nd : ∀ {x : Out Entry}, NoDiv x → x = .fault .diverge → False := fun h1 h2 => h1 h2
  unfold entryDecode at h ⊢
  split at h
  · cases h
  · simp only at h ⊢
    split at h
    · rename_i _ buf ht
      rw [if_pos ht]
      cases hd : decodeRrset { eType := tRRSET } buf with
      | ok e => rw [hd] at h; exact (nd (NoDiv.decodeValTriplet e val) h).elim
      | fail => rw [hd] at h; cases h
      | fault f => rw [hd] at h; exact h
    · split at h
      · cases h
      · split at h
        · exact (nd ((NoDiv.decodeRdata _ _).bind fun e => NoDiv.decodeValTriplet e val) h).elim
        · split at h
          · exact (nd ((NoDiv.reverseName _).bind fun _ => NoDiv.ok _) h).elim
          · split at h
            · exact (nd ((NoDiv.pairUnpack _).bind fun _ => NoDiv.ok _) h).elim
            · split at h
              · cases h
              · split at h
                · exact (nd (NoDiv.decodeVersion _ _ _) h).elim
                · cases h

end Verif
