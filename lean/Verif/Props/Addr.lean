import Verif.Lemmas.Addr
/-!
# C11: the addressing of product states
-/
namespace Verif.Props
open Verif.Spec Verif.Addr Verif.Radix

/-- C11. For every table of local-root counts (`cols` are its columns, one per rootspace, each with one
count per fragment) the function succeeds and returns one rootspace index and one address per fragment for
each product state: there are `Σ_r Π_f lroots[f,r]` of them; every column is a valid address (a rootspace
and, for each fragment, a local root below that rootspace's count); every valid address occurs at exactly
one place; and columns are sorted by rootspace and, within a rootspace, with the first fragment fastest. -/
theorem C11_bijection (nfrags : Nat) (cols : List (List Nat)) (hc : ∀ c ∈ cols, c.length = nfrags) :
    ∃ rootaddr fragaddr, getRootaddrFragaddr nfrags cols = some (rootaddr, fragaddr) ∧
      rootaddr.length = (cols.map List.prod).sum ∧ fragaddr.length = nfrags ∧
      (∀ row ∈ fragaddr, row.length = (cols.map List.prod).sum) ∧
      (∀ k, k < (cols.map List.prod).sum → rootaddr.getD k 0 < cols.length ∧
        InShape (fragaddr.map (fun row => row.getD k 0)) (cols.getD (rootaddr.getD k 0) [])) ∧
      (∀ r t, r < cols.length → InShape t (cols.getD r []) →
        ∃! k, k < (cols.map List.prod).sum ∧ rootaddr.getD k 0 = r ∧
          fragaddr.map (fun row => row.getD k 0) = t) ∧
      (∀ k k', k < k' → k' < (cols.map List.prod).sum → rootaddr.getD k 0 ≤ rootaddr.getD k' 0 ∧
        (rootaddr.getD k 0 = rootaddr.getD k' 0 → ∃ i, i < nfrags ∧
          (fragaddr.getD i []).getD k 0 < (fragaddr.getD i []).getD k' 0 ∧
          ∀ j, i < j → j < nfrags → (fragaddr.getD j []).getD k 0 = (fragaddr.getD j []).getD k' 0)) := by
  have hcr : ∀ r, r < cols.length → (cols.getD r []).length = nfrags := by
    intro r hr
    apply hc
    rw [List.getD_eq_getElem _ _ hr]; exact List.getElem_mem _
  have hg : ∀ i, i < nfrags → ∀ r, r < cols.length →
      (addrsOf (cols.getD r []) i).length = (cols.getD r []).prod := by
    intro i hi r hr
    exact addrsOf_length _ _ (by rw [hcr r hr]; exact hi)
  have hra : ∀ r k', r < cols.length → k' < (cols.getD r []).prod →
      ((List.range cols.length).flatMap (fun r => List.replicate (cols.getD r []).prod r)).getD (off cols r + k') 0 = r := by
    intro r k' hr hk'
    rw [flatMap_getD cols _ (by simp) _ (Nat.le_refl _) r k' hr hk']
    rw [List.getD_replicate _ hk']
  have hfa : ∀ i r k', i < nfrags → r < cols.length → k' < (cols.getD r []).prod →
      ((List.range cols.length).flatMap (fun r => addrsOf (cols.getD r []) i)).getD (off cols r + k') 0 =
        (digits (cols.getD r []) k').getD i 0 := by
    intro i r k' hi hr hk'
    rw [flatMap_getD cols _ (hg i hi) _ (Nat.le_refl _) r k' hr hk']
    exact addrsOf_getD _ _ _ (by rw [hcr r hr]; exact hi) hk'
  have hcol : ∀ r k', r < cols.length → k' < (cols.getD r []).prod →
      ((List.range nfrags).map (fun i => (List.range cols.length).flatMap (fun r => addrsOf (cols.getD r []) i))).map
        (fun row => row.getD (off cols r + k') 0) = digits (cols.getD r []) k' := by
    intro r k' hr hk'
    apply List.ext_getElem
    · simp only [List.length_map, List.length_range]
      rw [digits_length, hcr r hr]
    · intro i h1 h2
      have hi : i < nfrags := by simpa using h1
      simp only [List.getElem_map, List.getElem_range]
      rw [hfa i r k' hi hr hk', List.getD_eq_getElem _ _ h2]
  have hrow : ∀ i, i < nfrags → ((List.range nfrags).map
      (fun i => (List.range cols.length).flatMap (fun r => addrsOf (cols.getD r []) i))).getD i [] =
      (List.range cols.length).flatMap (fun r => addrsOf (cols.getD r []) i) := by
    intro i hi
    rw [List.getD_eq_getElem _ _ (by simpa using hi)]
    simp
  refine ⟨_, _, addr_closed nfrags cols hc, ?_, by simp, ?_, ?_, ?_, ?_⟩
  · rw [flatMap_off cols _ (by simp) _ (Nat.le_refl _), off_all]
  · intro row hrow
    simp only [List.mem_map, List.mem_range] at hrow
    obtain ⟨i, hi, rfl⟩ := hrow
    rw [flatMap_off cols _ (hg i hi) _ (Nat.le_refl _), off_all]
  · intro k hk
    rw [← off_all] at hk
    obtain ⟨r, k', h1, h2, rfl⟩ := off_find cols k _ (Nat.le_refl _) hk
    rw [hra r k' h1 h2, hcol r k' h1 h2]
    exact ⟨h1, digits_inShape _ _ h2⟩
  · intro r t hr ht
    have hlt := posF_lt ht
    refine ⟨off cols r + posF (cols.getD r []) t, ⟨?_, hra r _ hr hlt, ?_⟩, ?_⟩
    · rw [← off_all]
      have := off_mono cols (show r + 1 ≤ cols.length by omega) (Nat.le_refl _)
      rw [off_succ cols r hr] at this
      omega
    · rw [hcol r _ hr hlt, digits_posF ht]
    · rintro k ⟨hk, h1, h2⟩
      rw [← off_all] at hk
      obtain ⟨r', k', h3, h4, rfl⟩ := off_find cols k _ (Nat.le_refl _) hk
      rw [hra r' k' h3 h4] at h1
      subst h1
      rw [hcol r' k' h3 h4] at h2
      rw [← h2, posF_digits _ _ h4]
  · intro k k' hkk hk'
    rw [← off_all] at hk'
    obtain ⟨r', x', h3, h4, rfl⟩ := off_find cols k' _ (Nat.le_refl _) hk'
    obtain ⟨r, x, h1, h2, rfl⟩ := off_find cols k _ (Nat.le_refl _) (by omega)
    rw [hra r x h1 h2, hra r' x' h3 h4]
    constructor
    · by_contra hlt
      have := off_mono cols (show r' + 1 ≤ r by omega) (by omega)
      rw [off_succ cols r' h3] at this
      omega
    · rintro rfl
      obtain ⟨i, hi, hlt, heq⟩ := digits_colex (cols.getD r []) x x' h4 (by omega)
      rw [hcr r h1] at hi heq
      refine ⟨i, hi, ?_, ?_⟩
      · rw [hrow i hi, hfa i r x hi h1 h2, hfa i r x' hi h3 h4]; exact hlt
      · intro j hij hj
        rw [hrow j hj, hfa j r x hj h1 h2, hfa j r x' hj h3 h4]
        exact heq j hij hj

/-- The hypotheses of `C11_bijection` are met by a table with two fragments and two rootspaces. -/
example : (∀ c ∈ [[2, 3], [1, 2]], c.length = 2) ∧ getRootaddrFragaddr 2 [[2, 3], [1, 2]] =
    some ([0, 0, 0, 0, 0, 0, 1, 1], [[0, 1, 0, 1, 0, 1, 0, 0], [0, 0, 1, 1, 2, 2, 0, 1]]) := by decide

end Verif.Props
