import Verif.Lemmas.LiveRun
import Verif.Lemmas.Wild

/-!
# What the rows let through by the filters of an open iterator show
-/

namespace Verif
open Spec

theorem wild_left {name : Bytes} {b : Bool} (h : isLeftWildcard name = some b) : WildName name := by
  match name, h with
  | [], h => cases h
  | [_], h => cases h
  | [_, _], h => cases h
  | x :: y :: z :: s, h =>
    rw [isLeftWildcard_cons] at h
    split at h
    · rename_i hxy
      obtain ⟨rfl, hy⟩ := hxy
      exact ⟨y, hy, .inl ⟨z, s, rfl⟩⟩
    · cases h

theorem end3 {name : Bytes} (h : 3 ≤ name.length) : ∃ a x y z, name = a ++ [x, y, z] := by
  refine ⟨name.take (name.length - 3), name[name.length - 3], name[name.length - 2], name[name.length - 1], ?_⟩
  apply List.ext_getElem
  · simp; omega
  · intro i h1 h2
    by_cases hi : i < name.length - 3
    · rw [List.getElem_append_left (by simp; omega)]
      simp
    · rw [List.getElem_append_right (by simp; omega)]
      have hl : (name.take (name.length - 3)).length = name.length - 3 := by simp
      rcases (by omega : i = name.length - 3 ∨ i = name.length - 2 ∨ i = name.length - 1) with rfl | rfl | rfl
      · simp
      · simp only [hl, show name.length - 2 - (name.length - 3) = 1 by omega]
        rfl
      · simp only [hl, show name.length - 1 - (name.length - 3) = 2 by omega]
        rfl

theorem wild_right {name : Bytes} {b : Bool} (h : isRightWildcard name = some b) : WildName name := by
  by_cases hl : 3 ≤ name.length
  · obtain ⟨a, x, y, z, rfl⟩ := end3 hl
    rw [isRightWildcard_end] at h
    split at h
    · rename_i hxy
      obtain ⟨rfl, hy⟩ := hxy
      exact ⟨y, hy, .inr ⟨a, z, rfl⟩⟩
    · cases h
  · unfold isRightWildcard at h
    rw [if_neg hl] at h
    cases h

theorem not_wild {name : Bytes} (h1 : isLeftWildcard name = none) (h2 : isRightWildcard name = none) : ¬ WildName name := by
  rintro ⟨c, hc, ⟨z, s, rfl⟩ | ⟨a, z, rfl⟩⟩
  · rw [isLeftWildcard_cons, if_pos ⟨rfl, hc⟩] at h1
    cases h1
  · rw [isRightWildcard_end, if_pos ⟨rfl, hc⟩] at h2
    cases h2

/-- A query for one name and type has no filters. -/
theorem pinned_plan {q : Query} {p : Plan} (hp : initKind q = .ok p) (h : Pinned q) : p.onSource = [] := by
  obtain ⟨hq, hdo, hw⟩ := h
  unfold initKind at hp
  rw [hq] at hp
  simp only at hp
  unfold initRrset at hp
  split at hp
  · rename_i hl; exact absurd (wild_left hl) hw
  · split at hp
    · rename_i hr; exact absurd (wild_right hr) hw
    · unfold initRrsetExact at hp
      obtain ⟨rev, -, hp⟩ := out_bind hp
      rw [hdo] at hp
      split at hp
      · cases hp
      · simp only [if_true] at hp
        obtain ⟨k, -, hp⟩ := out_bind hp
        cases hp
        rfl

/-- The parts of `Obeys` that depend on the key alone, and that the entry is an RRset or a record. -/
theorem obeys_key {q0 q : Query} {p : Plan} (hp : initKind q0 = .ok p)
    (hk : q0.qType = .rrset ∨ q0.qType = .rdataName ∨ q0.qType = .rdataIp ∨ q0.qType = .rdataRaw)
    (hty0 : q0.rrtype < 65536) (hty : q.rrtype < 65536)
    (hbw : ∀ b, q0.bailiwick = some b → ∃ n, legalLabels n ∧ b = wire n)
    {V : View} (hV : (p.indirect = none ∧ V = p.view) ∨ ∃ tb k, p.indirect = some tb ∧ V = .pfx (tb :: k))
    {key v val : Bytes} {e : Entry} (hok : V.ok key = true)
    (hf : ∀ f ∈ p.onSource, liveFilter q0 p.view.lo.length f q (key, v) = .pass)
    (hd : entryDecode key val = .ok e) :
    ((∀ t, q0.bounds.any = true → shownTimes e = some t → WithinBounds q.bounds t) → Obeys q0 q e) ∧
    ((∃ buf, key = 0 :: buf) ∨ ∃ buf, key = 2 :: buf) := by
  suffices h : ((Pinned q0 → shownType e = some q0.rrtype) ∧
      (Pinned q0 → ∀ b, q0.bailiwick = some b →
        ∃ n, legalLabels n ∧ b = wire n.reverse ∧ shownBailiwick e = some (wire n)) ∧
      (¬ Pinned q0 → q0.doRrtype = true → shownType e = some q.rrtype) ∧
      (q0.doRrtype = false → q0.qType = .rdataName → ∃ t ∈ namedTypes, shownType e = some t) ∧
      (¬ Pinned q0 → q0.qType = .rrset → q0.bailiwick ≠ none →
        ∃ n, legalLabels n ∧ q.bailiwick = some (wire n.reverse) ∧ shownBailiwick e = some (wire n))) ∧
      ((∃ buf, key = 0 :: buf) ∨ ∃ buf, key = 2 :: buf) by
    obtain ⟨⟨h1, h2, h3, h4, h5⟩, h6⟩ := h
    refine ⟨fun ht => ⟨h1, h2, h3, h4, h5, fun hb => ?_⟩, h6⟩
    have hs : ∃ t, shownTimes e = some t := by
      rcases h6 with ⟨buf, rfl⟩ | ⟨buf, rfl⟩
      · obtain ⟨own, bw, nt, t, rest, f, l, c, -, -, -, -, -, -, hu, h0, -⟩ := decode_rrset_shape rfl hd
        exact ⟨_, (shown_of_rrset h0).2.1⟩
      · obtain ⟨lo, hi, nt, t, f, l, c, -, -, -, -, hu, h0, -⟩ := decode_rdata_shape rfl hd
        exact ⟨_, (shown_of_rdata h0).2⟩
    obtain ⟨t, hs⟩ := hs
    exact ⟨t, hs, ht t hb hs⟩
  by_cases hpin : Pinned q0
  · have hnil := pinned_plan hp hpin
    obtain ⟨m1, m2, m3, m4⟩ := meets_key (v := v) hp hk (fun _ => hty0) hbw hV hok (by rw [hnil]; intro f h; cases h) hd
    exact ⟨⟨fun _ => m1 hpin.2.1, fun _ => m3 hpin.1, fun h => absurd hpin h, m2, fun h => absurd hpin h⟩, m4⟩
  · refine (fun hmain => ⟨⟨fun h => absurd h hpin, fun h => absurd h hpin, fun _ => hmain.1, hmain.2.1, fun _ => hmain.2.2.1⟩,
      hmain.2.2.2⟩ : ((q0.doRrtype = true → shownType e = some q.rrtype) ∧
      (q0.doRrtype = false → q0.qType = .rdataName → ∃ t ∈ namedTypes, shownType e = some t) ∧
      (q0.qType = .rrset → q0.bailiwick ≠ none →
        ∃ n, legalLabels n ∧ q.bailiwick = some (wire n.reverse) ∧ shownBailiwick e = some (wire n)) ∧
      ((∃ buf, key = 0 :: buf) ∨ ∃ buf, key = 2 :: buf)) → _) ?_
    have typed : q0.qType = .rrset ∨ q0.qType = .rdataRaw → ∀ {fs : List Filt} {n : Nat},
        (∀ f ∈ rrtypeIf q0 ++ fs, liveFilter q0 n f q (key, v) = .pass) → q0.doRrtype = true →
        shownType e = some q.rrtype := by
      intro hq fs n hfs hdo
      have := hfs (.filterRrtype, filterRrtype q0.rrtype) (by simp [rrtypeIf, filtIf, hdo])
      have e1 : liveFilter q0 n (.filterRrtype, filterRrtype q0.rrtype) q = filterRrtype q.rrtype := by
        unfold liveFilter
        rcases hq with hq | hq <;> simp [hq]
      rw [e1] at this
      exact typed_of_match (pass_of_verdict this) hd hty
    have bailed : ∀ {n : Nat}, (∀ f ∈ bailiwickIf q0, liveFilter q0 n f q (key, v) = .pass) → (∃ buf, key = 0 :: buf) →
        q0.bailiwick ≠ none →
        ∃ n, legalLabels n ∧ q.bailiwick = some (wire n.reverse) ∧ shownBailiwick e = some (wire n) := by
      rintro n hfs ⟨buf, rfl⟩ hb
      cases hb0 : q0.bailiwick with
      | none => exact absurd hb0 hb
      | some b =>
        have := hfs (.filterBailiwick, filterBailiwick b) (by simp [bailiwickIf, hb0])
        obtain ⟨m, hm, hbm, hs⟩ := bailiwick_of_match (pass_of_verdict this) hd
        refine ⟨m, hm, ?_, hs⟩
        cases hqb : q.bailiwick with
        | none =>
          rw [hqb] at hbm
          simp [wire] at hbm
        | some b' =>
          rw [hqb] at hbm
          exact congrArg some hbm
    unfold initKind at hp
    rcases hk with hq | hq | hq | hq
    · rw [hq] at hp ⊢
      simp only at hp
      refine (fun hmain => ⟨hmain.1, fun _ h => by (cases h), fun _ => hmain.2.1, .inl hmain.2.2⟩ :
        ((q0.doRrtype = true → shownType e = some q.rrtype) ∧ (q0.bailiwick ≠ none →
          ∃ n, legalLabels n ∧ q.bailiwick = some (wire n.reverse) ∧ shownBailiwick e = some (wire n)) ∧
          ∃ buf, key = 0 :: buf) → _) ?_
      unfold initRrset at hp
      split at hp
      · -- left wildcard
        unfold initRrsetLeft at hp
        obtain ⟨k, hkk, hp⟩ := out_bind hp
        cases hp
        unfold leftWildcardKey at hkk
        obtain ⟨rev, -, hkk⟩ := out_bind hkk
        split at hkk
        · cases hkk
        · cases hkk
          have hhead : ∃ buf, key = 0 :: buf := by
            rcases hV with ⟨-, hV⟩ | ⟨tb, k, h, -⟩
            · exact key_head hV hok
            · cases h
          simp only [List.append_assoc] at hf
          refine ⟨typed (.inl hq) (fs := bailiwickIf q0) fun f h => hf f (List.mem_append_right _ h),
            bailed (fun f h => hf f ?_) hhead, hhead⟩
          exact List.mem_append_right _ (List.mem_append_right _ h)
      · rename_i hleft
        split at hp
        · -- right wildcard
          unfold initRrsetRight at hp
          cases hp
          have hhead : ∃ buf, key = 0 :: buf := by
            rcases hV with ⟨h, -⟩ | ⟨tb, k, h, hV⟩
            · cases h
            · cases h; exact key_head hV hok
          exact ⟨typed (.inl hq) (fs := bailiwickIf q0) fun f h => hf f h,
            bailed (fun f h => hf f (List.mem_append_right _ h)) hhead, hhead⟩
        · rename_i hright
          unfold initRrsetExact at hp
          obtain ⟨rev, hrev, hp⟩ := out_bind hp
          split at hp
          · cases hp
          · cases hdo : q0.doRrtype with
            | true => exact absurd ⟨hq, hdo, not_wild hleft hright⟩ hpin
            | false =>
              rw [hdo] at hp
              cases hp
              have hhead : ∃ buf, key = 0 :: buf := by
                rcases hV with ⟨-, hV⟩ | ⟨tb, k, h, -⟩
                · exact key_head hV hok
                · cases h
              exact ⟨fun h => by (cases h), bailed hf hhead, hhead⟩
    · -- names in data
      have hfil : ∀ {n : Nat}, liveFilter q0 n (rdataNameFilter q0) q (key, v) = .pass → (∃ buf, key = 2 :: buf) →
          (q0.doRrtype = true → shownType e = some q.rrtype) ∧
          (q0.doRrtype = false → QType.rdataName = .rdataName → ∃ t ∈ namedTypes, shownType e = some t) := by
        rintro n hpass ⟨buf, rfl⟩
        refine ⟨fun hdo => ?_, fun hdo _ => ?_⟩
        · have e1 : liveFilter q0 n (rdataNameFilter q0) q = filterRrtype q.rrtype := by
            simp [liveFilter, rdataNameFilter, hq, hdo]
          rw [e1] at hpass
          exact typed_of_match (pass_of_verdict hpass) hd hty
        · have e1 : liveFilter q0 n (rdataNameFilter q0) q = filterRrtypeRdataName := by
            simp [liveFilter, rdataNameFilter, hq, hdo]
          rw [e1] at hpass
          obtain ⟨lo, hi, nt, t, f, l, c, h2, hlo, hhi, hv, -, h0, hr, -⟩ := decode_rdata_shape rfl hd
          have := rdataNameMatch_at_rdata h2 hlo hhi (pass_of_verdict hpass) hv
          have hsmall : ∀ t ∈ namedTypes, t < 65536 := by decide
          exact ⟨t, this, by rw [(shown_of_rdata h0).1, hr, Nat.mod_eq_of_lt (hsmall t this)]⟩
      rw [hq] at hp ⊢
      simp only at hp
      have fin : rdataNameFilter q0 ∈ p.onSource ∧ (∃ buf, key = 2 :: buf) := by
        unfold initRdataName at hp
        split at hp
        · unfold initRdataRight at hp
          cases hp
          rcases hV with ⟨-, hV⟩ | ⟨tb, k, h, -⟩
          · exact ⟨List.mem_cons_self, key_head hV hok⟩
          · cases h
        · split at hp
          · unfold initRdataLeft at hp
            obtain ⟨k, hkk, hp⟩ := out_bind hp
            cases hp
            rcases hV with ⟨h, -⟩ | ⟨tb, k, h, hV⟩
            · cases h
            · cases h; exact ⟨List.mem_cons_self, key_head hV hok⟩
          · unfold initRdataExact at hp
            obtain ⟨k, hkk, hp⟩ : ∃ k, (∃ s, k = 2 :: s) ∧
                p = { onSource := [rdataNameFilter q0], view := .pfx k } := by
              split at hp
              · obtain ⟨k, hkk, hp⟩ := out_bind hp
                cases hp
                unfold addRrtype at hkk
                split at hkk
                · cases hkk
                · cases hkk; exact ⟨_, ⟨_, rfl⟩, rfl⟩
              · cases hp; exact ⟨_, ⟨_, rfl⟩, rfl⟩
            obtain ⟨s, rfl⟩ := hkk
            subst hp
            rcases hV with ⟨-, hV⟩ | ⟨tb, k, h, -⟩
            · exact ⟨List.mem_cons_self, key_head hV hok⟩
            · cases h
      have := hfil (hf _ fin.1) fin.2
      exact ⟨this.1, this.2, fun h => by (cases h), .inr fin.2⟩
    · -- addresses
      rw [hq] at hp
      simp only at hp
      have fin : q0.doRrtype = true ∧ ∃ f, (Stage.filterRrtype, f) ∈ p.onSource := by
        unfold initRdataIp at hp
        obtain ⟨_, h1, hp⟩ := out_bind hp
        obtain ⟨_, h2, hp⟩ := out_bind hp
        obtain ⟨k, hkk, hp⟩ := out_bind hp
        have hdo : q0.doRrtype = true := by
          cases hdo : q0.doRrtype with
          | true => rfl
          | false => rw [hdo] at h1; cases h1
        refine ⟨hdo, filterRrtypeIp q0.rrtype k.length, ?_⟩
        simp only at hp
        split at hp
        · obtain ⟨k2, -, hp⟩ := out_bind hp
          obtain ⟨k3, -, hp⟩ := out_bind hp
          cases hp
          exact List.mem_cons_self
        · cases hp
          exact List.mem_cons_self
      obtain ⟨hdo, f, hmem⟩ := fin
      have hpass := hf _ hmem
      have e1 : liveFilter q0 p.view.lo.length (Stage.filterRrtype, f) q = filterRrtypeIp q.rrtype p.view.lo.length := by
        simp [liveFilter, hq]
      rw [e1] at hpass
      have hm : rrtypeMatch q.rrtype key = .ok true := by
        simp only [filterRrtypeIp, filterRrtype] at hpass
        rcases hx : rrtypeMatch q.rrtype key with (_ | _) | _ | _
        · exfalso
          rw [hx] at hpass
          exact ipSkip_ne_pass hpass
        · rfl
        · rw [hx] at hpass; cases hpass
        · rw [hx] at hpass; cases hpass
      refine ⟨fun _ => typed_of_match hm hd hty, fun h => by (rw [hdo] at h; cases h), fun h => ?_, rrtypeMatch_key hm⟩
      rw [hq] at h; cases h
    · -- raw data
      rw [hq] at hp
      simp only at hp
      unfold initRdataRaw at hp
      obtain ⟨d, -, hp⟩ := out_bind hp
      cases hp
      refine ⟨typed (.inr hq) (fs := []) (by simpa using hf), fun _ h => ?_, fun h => ?_, ?_⟩
      · rw [hq] at h; cases h
      · rw [hq] at h; cases h
      · rcases hV with ⟨-, hV⟩ | ⟨tb, k, h, -⟩
        · exact .inr (key_head hV hok)
        · cases h

end Verif
