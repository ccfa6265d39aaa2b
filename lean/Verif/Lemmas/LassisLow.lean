import Verif.Lemmas.LassisSpace
/-!
# LASSIS: every combination of hops is possible when the total projection is low
-/
namespace Verif.Lassis
open Verif.Spaces Verif.Spaces.Space Verif.Spec Verif.Props

theorem sum_set_el (l : List Int) (i : Nat) (v : Int) (hi : i < l.length) : (l.set i v).sum = l.sum - el l i + v := by
  induction l generalizing i with
  | nil => simp at hi
  | cons a l ih =>
    cases i with
    | zero => simp [el]; omega
    | succ i =>
      have := ih i (by simpa using hi)
      simp only [List.set_cons_succ, List.sum_cons, this]
      simp [el]; omega

theorem exists_product (so : List Nat → List Nat) (ref : Space) (hr : Fits ref ref) (hrec : ref.entmap = [])
    (hM : -1 ≤ totalSpin ref ∧ totalSpin ref ≤ 1) (xs : List ElHop)
    (hx : ∀ x ∈ xs, x.src < ref.nfrag ∧ x.dst < ref.nfrag ∧
      Room (el ref.nlas x.src) (ref.nelec x.src - 1) (el ref.smults x.src + x.dSrc) ∧
      Room (el ref.nlas x.dst) (ref.nelec x.dst + 1) (el ref.smults x.dst + x.dDst))
    (hnd : (touched xs []).Nodup) : ∃ t, IsProduct so ref xs [] t := by
  induction xs with
  | nil => exact ⟨ref, hr, by simp [touched], by simp, by simp, by simp, fun _ _ => ⟨rfl, rfl⟩, rfl, by rw [hrec]; simp [hopRecord]⟩
  | cons x xs ih =>
    have htc : touched (x :: xs) [] = x.src :: x.dst :: touched xs [] := by simp [touched]
    rw [htc] at hnd
    simp only [List.nodup_cons, List.mem_cons, not_or] at hnd
    obtain ⟨⟨hne, hs⟩, hd, hnd'⟩ := hnd
    obtain ⟨t, ht⟩ := ih (fun z hz => hx z (List.mem_cons_of_mem _ hz)) hnd'
    obtain ⟨b1, b2, r1, r2⟩ := hx x (by simp)
    have lt := fits_len ht.fits
    have sS := ht.rest x.src hs
    have sD := ht.rest x.dst hd
    let ch := (t.charges.set x.src (el ref.charges x.src + 1)).set x.dst (el ref.charges x.dst - 1)
    let sm := (t.smults.set x.src (el ref.smults x.src + x.dSrc)).set x.dst (el ref.smults x.dst + x.dDst)
    have ech : ∀ k, el ch k = if k = x.dst then el ref.charges x.dst - 1 else if k = x.src then el ref.charges x.src + 1 else el t.charges k := by
      intro k
      show el ((t.charges.set x.src _).set x.dst _) k = _
      rw [el_set _ _ _ _ (by simp; omega), el_set _ _ _ _ (by omega)]
    have esm : ∀ k, el sm k = if k = x.dst then el ref.smults x.dst + x.dDst else if k = x.src then el ref.smults x.src + x.dSrc else el t.smults k := by
      intro k
      show el ((t.smults.set x.src _).set x.dst _) k = _
      rw [el_set _ _ _ _ (by simp; omega), el_set _ _ _ _ (by omega)]
    have room : ∀ k, k < ref.nfrag → Room (el ref.nlas k) (el ref.nelelas k - el ch k) (el sm k) := by
      intro k hk
      rw [ech, esm]
      by_cases h1 : k = x.dst
      · subst h1
        simp only [if_true]
        rw [show el ref.nelelas x.dst - (el ref.charges x.dst - 1) = ref.nelec x.dst + 1 by unfold Space.nelec; omega]
        exact r2
      · rw [if_neg h1, if_neg h1]
        by_cases h2 : k = x.src
        · subst h2
          simp only [if_true]
          rw [show el ref.nelelas x.src - (el ref.charges x.src + 1) = ref.nelec x.src - 1 by unfold Space.nelec; omega]
          exact r1
        · rw [if_neg h2, if_neg h2]
          have := ((fragOk_iff t k).mp (ht.fits.ok k (by rw [ht.fits.nfrag]; exact hk))).1
          rw [ht.fits.orbs, ht.fits.elec] at this
          exact this
    have lsm : sm.length = ref.nfrag := by simp [sm, lt.1]
    have lch : ch.length = ref.nfrag := by simp [ch, lt.2.2]
    -- the total multiplicities keep their parity
    have hsum : (sm.map (· - 1)).sum = (t.smults.map (· - 1)).sum + x.dSrc + x.dDst := by
      have h1 : sm.sum = t.smults.sum + x.dSrc + x.dDst := by
        show ((t.smults.set x.src _).set x.dst _).sum = _
        rw [sum_set_el _ _ _ (by simp; omega), sum_set_el _ _ _ (by omega), el_set _ _ _ _ (by omega), if_neg (Ne.symm hne), sS.2, sD.2]
        omega
      rw [sum_map_sub, sum_map_sub, h1, lsm, lt.1]
      omega
    have hb := spinVec_bound (fits_spinVec ht.fits)
    rw [ht.total] at hb
    have hnn : ∀ s ∈ sm.map (· - 1), 0 ≤ s := by
      intro s hs
      obtain ⟨v, hv, rfl⟩ := List.mem_map.mp hs
      obtain ⟨k, hk, rfl⟩ := List.mem_iff_getElem.mp hv
      have := (room k (by omega)).1
      rw [el, List.getD_eq_getElem?_getD, List.getElem?_eq_getElem hk] at this
      simp at this ⊢
      omega
    have hpos : 0 ≤ (sm.map (· - 1)).sum := List.sum_nonneg hnn
    have hd1 : x.dSrc = 1 ∨ x.dSrc = -1 := by unfold ElHop.dSrc; split <;> simp
    have hd2 : x.dDst = 1 ∨ x.dDst = -1 := by unfold ElHop.dDst; split <;> simp
    obtain ⟨m, hm⟩ := exists_spinVec (sm.map (· - 1)) hnn (totalSpin ref) (by rw [hsum] at hpos ⊢; omega)
    have lm : m.length = ref.nfrag := by rw [hm.1, List.length_map, lsm]
    refine ⟨⟨ref.nlas, ref.nelelas, m, sm, ch, 0, hopRecord so (x :: xs)⟩, ⟨⟨hr.shaped.1, lm, lsm, lch⟩, rfl, rfl, ?_⟩, ?_, ?_, ?_, by simp, ?_, hm.2.2, rfl⟩
    · intro k hk
      rw [fragOk_iff]
      refine ⟨room k hk, ?_⟩
      have := hm.2.1 k (by rw [List.length_map, lsm]; exact hk)
      rw [el_map_sub _ _ (by rw [lsm]; exact hk)] at this
      exact this
    · rw [htc]; simp only [List.nodup_cons, List.mem_cons, not_or]; exact ⟨⟨hne, hs⟩, hd, hnd'⟩
    · intro z hz
      simp only
      rw [ech, esm]
      rcases List.mem_cons.mp hz with rfl | hz
      · rw [if_neg hne, if_neg hne]; simp
      · have hm : z.src ∈ touched xs [] := (mem_touched _ _ _).mpr (Or.inl ⟨z, hz, Or.inl rfl⟩)
        have n1 : z.src ≠ x.dst := fun hc => hd (hc ▸ hm)
        have n2 : z.src ≠ x.src := fun hc => hs (hc ▸ hm)
        rw [if_neg n1, if_neg n2, if_neg n1, if_neg n2]
        exact ht.source z hz
    · intro z hz
      simp only
      rw [ech, esm]
      rcases List.mem_cons.mp hz with rfl | hz
      · simp
      · have hm : z.dst ∈ touched xs [] := (mem_touched _ _ _).mpr (Or.inl ⟨z, hz, Or.inr rfl⟩)
        have n1 : z.dst ≠ x.dst := fun hc => hd (hc ▸ hm)
        have n2 : z.dst ≠ x.src := fun hc => hs (hc ▸ hm)
        rw [if_neg n1, if_neg n2, if_neg n1, if_neg n2]
        exact ht.dest z hz
    · intro k hk
      rw [htc] at hk
      simp only [List.mem_cons, not_or] at hk
      unfold SameFragNoM
      simp only
      rw [ech, esm, if_neg hk.2.1, if_neg hk.1, if_neg hk.2.1, if_neg hk.1]
      exact ht.rest k hk.2.2

end Verif.Lassis
