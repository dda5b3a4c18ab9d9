import Verif.Spec.Runs
import Verif.Lemmas.Mtbl

/-!
# Simulations answer any sequence of calls correctly
-/

namespace Verif
open Spec

theorem sim_serves {M : Mach} {t : Bool} {R : M.St → Bytes → Table → Prop} (hS : Sim M t R)
    (ops : List Op) (ha : ∀ o ∈ ops, t = true → o.world.armed = true) :
    ∀ {s lo L} (b : Bool), R s lo L →
      Serves t (if b then some lo else none) L ops (answers M s ops) := by
  induction ops with
  | nil => intros; exact .nil
  | cons o ops ih =>
    have ih := @ih (fun o ho => ha o (List.mem_cons_of_mem _ ho))
    have ha := ha o (List.mem_cons_self)
    intro s lo L b hR
    cases o with
    | next w =>
      obtain ⟨-, h⟩ := hS.next w hR ha
      simp only [answers]
      rcases h with ⟨hr, ht, -, lo', -, hR'⟩ | ⟨-, -, ⟨hr, rfl, lo', -, hR'⟩ | ⟨kv, L', hr, rfl, -, hR'⟩⟩
      · rw [hr]; exact .timeout ht (by simpa using ih false hR')
      · rw [hr]; exact .done (by simpa using ih false hR')
      · rw [hr]; exact .item (by simpa using ih true hR')
    | seek k w =>
      simp only [answers]
      cases b with
      | false => exact .unspecified (by simp)
      | true =>
        by_cases hk : lexLt lo k = true
        · obtain ⟨-, -, hR', hf⟩ := hS.seek k w hR hk
          exact .seek hk hf (by simpa using ih true hR')
        · exact .unspecified (by simpa using hk)

theorem impl_serves {M : Mach} {t : Bool} {V : View} {L : Table} (h : Impl M t V L)
    (ops : List Op) (ha : t = true → ∀ o ∈ ops, o.world.armed = true) :
    Serves t (some V.lo) L ops (answers M (M.start V) ops) := by
  obtain ⟨R, hS, h0⟩ := h
  exact sim_serves hS ops (fun o ho ht => ha ht o ho) true h0

end Verif
