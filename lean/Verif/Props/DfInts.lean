import Verif.Lemmas.DfInts
import Mathlib.Algebra.Order.BigOperators.Ring.Finset
import Mathlib.Tactic.NormNum
import Mathlib.Tactic.IntervalCases
import Mathlib.Algebra.Field.Rat
/-!
# C122: density-fitted integrals and potentials
-/
namespace Verif.Props
open Verif.DfInts Verif.Spec.DfInts

section
variable {K : Type} [Field K] [LinearOrder K]

/-- C122: the number of orbitals is found from the number of packed pairs, for every number of orbitals. -/
theorem C122_infer (n : Nat) (hn : 0 < n) : inferNmo (n * (n + 1) / 2) = n := inferNmo_eq hn

example : inferNmo 6 = 3 := C122_infer 3 (by norm_num)

/-- C122: if positions in the arrays are representable in 32 bits, `contract1` of a row-major array returns, for every order of the
orbitals, every number of threads and every schedule of the parallel loop, the vectors contracted with the matrix, in which exactly
those pairs are left out whose vectors have a norm of at most the threshold. -/
theorem C122_contract1_partial (thresh : K) (nao naux nmo nthreads : Nat) (b : Nat → Nat → K) (cmat : Nat → Nat → K)
    (sort : List Nat) (sched : List (Nat × Nat)) (hsort : sort.Perm (List.range nao)) (hs : Schedule nao nthreads sched)
    (hsm : Small nao naux nmo nthreads) :
    ∃ v, contract1 thresh true nao naux nmo b cmat sort sched = some v ∧ ∀ i < nao, ∀ u < nmo, ∀ P < naux,
      v i u P = ∑ j ∈ Finset.range nao,
        if thresh * thresh < ∑ Q ∈ Finset.range naux, full b Q i j * full b Q i j then full b P i j * cmat j u else 0 := by
  refine ⟨_, contract1_true .., fun i hi u hu P hP => ?_⟩
  rw [cval_eq thresh nao naux nmo nthreads b cmat sort sched hsm.pairs hsm.result hsort hs hi hu hP]
  unfold rowVal
  refine Finset.sum_congr rfl fun j _ => ?_
  simp only [full_pair, metric, decide_eq_true_eq]

/-- C122: the elements which `contract1` returns differ from the contracted vectors by no more than the threshold times the sum of
the absolute values of the column of the matrix. -/
theorem C122_contract1_error_partial [IsStrictOrderedRing K] (thresh : K) (hthr : 0 ≤ thresh) (nao naux nmo nthreads : Nat)
    (b : Nat → Nat → K) (cmat : Nat → Nat → K) (sort : List Nat) (sched : List (Nat × Nat)) (hsort : sort.Perm (List.range nao))
    (hs : Schedule nao nthreads sched) (hsm : Small nao naux nmo nthreads) :
    ∃ v, contract1 thresh true nao naux nmo b cmat sort sched = some v ∧ ∀ i < nao, ∀ u < nmo, ∀ P < naux,
      |v i u P - half nao b cmat i u P| ≤ thresh * ∑ j ∈ Finset.range nao, |cmat j u| := by
  obtain ⟨v, hv, h⟩ := C122_contract1_partial thresh nao naux nmo nthreads b cmat sort sched hsort hs hsm
  refine ⟨v, hv, fun i hi u hu P hP => ?_⟩
  rw [h i hi u hu P hP, half, ← Finset.sum_sub_distrib, Finset.mul_sum]
  refine (Finset.abs_sum_le_sum_abs _ _).trans (Finset.sum_le_sum fun j _ => ?_)
  split
  · rw [sub_self, abs_zero]; exact mul_nonneg hthr (abs_nonneg _)
  · rename_i hn
    rw [zero_sub, abs_neg, abs_mul]
    refine mul_le_mul_of_nonneg_right ?_ (abs_nonneg _)
    apply abs_le_of_sq_le_sq' _ hthr |> abs_le.2
    rw [pow_two, pow_two]
    refine le_trans ?_ (not_lt.1 hn)
    exact Finset.single_le_sum (f := fun Q => full b Q i j * full b Q i j) (fun Q _ => mul_self_nonneg _) (Finset.mem_range.2 hP)

/-- Three orbitals; the pair `0, 2` vanishes. -/
def dfCols : Nat → Nat → Rat := fun P k => ([[1, 2, 3, 0, 4, 5], [2, 1, 1, 0, 3, 1]].getD P []).getD k 0
theorem dfCols_small : Small 3 2 2 2 := ⟨by norm_num, by norm_num, by norm_num⟩
theorem dfCols_schedule : Schedule 3 2 [(1, 2), (0, 0), (0, 1)] := ⟨by decide, by decide⟩

example : ∃ v, contract1 (1 / 2 : Rat) true 3 2 2 dfCols (fun j u => j + 2 * u) [0, 2, 1] [(1, 2), (0, 0), (0, 1)] = some v ∧
    v 1 1 0 = 29 := by
  obtain ⟨v, hv, h⟩ := C122_contract1_partial (1 / 2 : Rat) 3 2 2 2 dfCols (fun j u => j + 2 * u) [0, 2, 1] _ (by decide)
    dfCols_schedule dfCols_small
  refine ⟨v, hv, ?_⟩
  rw [h 1 (by norm_num) 1 (by norm_num) 0 (by norm_num)]
  norm_num [Finset.sum_range_succ, full, dfCols]

example : ∃ v, contract1 (1 / 2 : Rat) true 3 2 2 dfCols (fun j u => j + 2 * u) [0, 2, 1] [(1, 2), (0, 0), (0, 1)] = some v ∧
    |v 2 1 1 - half 3 dfCols (fun j u => j + 2 * u) 2 1 1| ≤ 9 / 2 := by
  obtain ⟨v, hv, h⟩ := C122_contract1_error_partial (1 / 2 : Rat) (by norm_num) 3 2 2 2 dfCols (fun j u => j + 2 * u) [0, 2, 1] _
    (by decide) dfCols_schedule dfCols_small
  refine ⟨v, hv, (h 2 (by norm_num) 1 (by norm_num) 1 (by norm_num)).trans ?_⟩
  norm_num [Finset.sum_range_succ]

/-- C122: the array which `get_h2eff` builds from density-fitted integrals, for every division of the auxiliary functions into
blocks and every schedule in every block, holds the integrals `(pu|vw)` in the packed form which the rest of the code expects, and
its attribute holds all vectors with one index contracted with the active orbitals. -/
theorem C122_h2eff_partial (thresh : K) (L : LasEnergy.Las K) (b : Nat → Nat → K) (nthreads : Nat) (blocks : List (Block K))
    (hcut : Cut b 0 (blocks.map fun B => (B.naux, B.b)))
    (hsort : ∀ B ∈ blocks, B.sort.Perm (List.range L.nao)) (hs : ∀ B ∈ blocks, Schedule L.nao nthreads B.sched)
    (hsm : ∀ B ∈ blocks, Small L.nao B.naux L.ncas nthreads) (hgap : ∀ B ∈ blocks, Gap thresh L.nao B.naux B.b) :
    ∃ h2 bmPu, h2effDf thresh L blocks = some (h2, bmPu) ∧
      Spec.LasEnergy.Packed L.nmo L.ncore L.ncas h2
        (Spec.LasEnergy.mo2 L.nao L.mo (eri (blocks.map Block.naux).sum b)) ∧
      ∀ m < L.nao, ∀ P < (blocks.map Block.naux).sum, ∀ u < L.ncas,
        bmPu m P u = half L.nao b (fun μ u => L.mo μ (L.ncore + u)) m u P := by
  let C : Nat → Nat → K := fun μ u => L.mo μ (L.ncore + u)
  let g : Block K → Nat × (Nat → Nat → Nat → K) := fun B => (B.naux, fun i u P =>
    cval thresh L.nao B.naux L.ncas B.b C B.sort B.sched ((i * L.ncas + u) * B.naux + P))
  have hval : ∀ B ∈ blocks, ∀ i < L.nao, ∀ u < L.ncas, ∀ P < B.naux, (g B).2 i u P = half L.nao B.b C i u P := by
    intro B hB i hi u hu P hP
    exact (cval_eq thresh L.nao B.naux L.ncas nthreads B.b C B.sort B.sched (hsm B hB).pairs (hsm B hB).result (hsort B hB)
      (hs B hB) hi hu hP).trans (rowVal_half thresh L.nao B.naux B.b C hi hP (hgap B hB))
  have hrun : h2effDf thresh L blocks = some
      ((blocks.map g).foldl (fun eri x => fun k => eri k + blockEri L x.1 x.2 k) (fun _ => 0),
        fun m P u => concat ((blocks.map g).map fun x => (x.1, x.2 m u)) P) := by
    unfold h2effDf
    have e : (blocks.mapM fun B =>
        (contract1 thresh true L.nao B.naux L.ncas B.b (fun μ u => L.mo μ (L.ncore + u)) B.sort B.sched).map fun f =>
          (B.naux, f)) = some (blocks.map g) := mapM_some g blocks
    rw [e]; rfl
  have hnaux : ((blocks.map fun B => (B.naux, B.b)).map Prod.fst).sum = (blocks.map Block.naux).sum := by
    rw [List.map_map]; rfl
  refine ⟨_, _, hrun, ?_, ?_⟩
  · intro p u v w _ hu hv hw
    rw [foldl_add (fun x k => blockEri L x.1 x.2 k), zero_add, mo2_half]
    let F : (Nat → Nat → K) → Nat → K := fun c P =>
      (∑ μ ∈ Finset.range L.nao, L.mo μ p * half L.nao c C μ u P) *
        ∑ μ ∈ Finset.range L.nao, L.mo μ (L.ncore + v) * half L.nao c C μ w P
    have h1 : ((blocks.map g).map fun x => blockEri L x.1 x.2 ((p * L.ncas + u) * (L.ncas * (L.ncas + 1) / 2) + (v * (v + 1) / 2 + w)))
        = (blocks.map fun B => (B.naux, B.b)).map fun x => ∑ P ∈ Finset.range x.1, F x.2 P := by
      rw [List.map_map, List.map_map]
      refine List.map_congr_left fun B hB => ?_
      refine (blockEri_eq L B.naux (g B).2 hu hv hw).trans (Finset.sum_congr rfl fun P hP => ?_)
      have hP' := Finset.mem_range.1 hP
      simp only [F]
      congr 1
      · exact Finset.sum_congr rfl fun μ hμ => by rw [hval B hB μ (Finset.mem_range.1 hμ) u hu P hP']
      · exact Finset.sum_congr rfl fun μ hμ => by
          rw [hval B hB μ (Finset.mem_range.1 hμ) w (lt_of_le_of_lt hw hv) P hP']
    rw [h1, cut_sum b F _ _ 0 hcut, hnaux]
    · exact Finset.sum_congr rfl fun P _ => by rw [Nat.zero_add]; rfl
    · intro c P o h
      simp only [F, half_shift L.nao C b c P o h]
  · intro m hm P hP u hu
    simp only [List.map_map]
    have h2 := cut_concat Block.naux Block.b b (fun c P => half L.nao c C m u P)
      (fun c P o h => half_shift L.nao C b c P o h m u) (fun B => (g B).2 m u) blocks 0 hcut
      (fun B hB P hP => hval B hB m hm u hu P hP) P hP
    rw [Nat.zero_add] at h2
    exact h2

/-- A molecule with three orbitals, one of them doubly occupied, and two active orbitals. -/
def dfLas : LasEnergy.Las Rat := ⟨3, 3, 1, 1, [1, 1], fun _ => 1, fun _ _ => 1, fun _ _ => 0, eri 2 dfCols,
  fun μ p => if μ = p then 1 else if μ < p then 2 else 0, fun _ => 0, fun _ _ _ _ _ => 1, fun _ _ _ _ _ _ => 0⟩
def dfBlocks : List (Block Rat) := [⟨1, dfCols, [0, 2, 1], [(1, 2), (0, 0), (0, 1)]⟩,
  ⟨1, fun P => dfCols (1 + P), [2, 0, 1], [(0, 0), (0, 1), (0, 2)]⟩]

theorem dfBlocks_cut : Cut dfCols 0 (dfBlocks.map fun B => (B.naux, B.b)) :=
  ⟨fun P _ k => by simp, fun P _ k => by simp, trivial⟩
theorem dfBlocks_gap : ∀ B ∈ dfBlocks, Gap (1 / 2 : Rat) dfLas.nao B.naux B.b := by
  intro B hB i hi j hj hle P hP
  have hi : i < 3 := hi
  have hj : j < 3 := hj
  simp only [dfBlocks, List.mem_cons, List.not_mem_nil, or_false] at hB
  rcases hB with rfl | rfl
  all_goals
    simp only at hP hle ⊢
    interval_cases P
    interval_cases i <;> interval_cases j <;> simp [full, dfCols] at hle ⊢ <;> norm_num at hle

theorem dfBlocks_run : ∃ h2 bmPu, h2effDf (1 / 2 : Rat) dfLas dfBlocks = some (h2, bmPu) ∧
    Spec.LasEnergy.Packed 3 1 2 h2 (Spec.LasEnergy.mo2 3 dfLas.mo (eri 2 dfCols)) ∧
    ∀ m < 3, ∀ P < 2, ∀ u < 2, bmPu m P u = half 3 dfCols (fun μ u => dfLas.mo μ (1 + u)) m u P :=
  C122_h2eff_partial (1 / 2 : Rat) dfLas dfCols 2 dfBlocks dfBlocks_cut
    (by intro B hB; simp only [dfBlocks, List.mem_cons, List.not_mem_nil, or_false] at hB
        rcases hB with rfl | rfl <;> decide)
    (by intro B hB; simp only [dfBlocks, List.mem_cons, List.not_mem_nil, or_false] at hB
        rcases hB with rfl | rfl <;> exact ⟨by decide, by decide⟩)
    (by intro B hB; simp only [dfBlocks, List.mem_cons, List.not_mem_nil, or_false] at hB
        rcases hB with rfl | rfl <;> exact ⟨by decide, by decide, by decide⟩)
    dfBlocks_gap

example : ∃ h2 bmPu, h2effDf (1 / 2 : Rat) dfLas dfBlocks = some (h2, bmPu) ∧ bmPu 1 1 0 = 3 := by
  obtain ⟨h2, bm, h, -, hb⟩ := dfBlocks_run
  refine ⟨h2, bm, h, ?_⟩
  rw [hb 1 (by norm_num) 1 (by norm_num) 0 (by norm_num)]
  norm_num [half, Finset.sum_range_succ, full, dfCols, dfLas]

/-- C122: the potential of the active electrons which is computed from the stored vectors is that which is computed from their
density matrix and the density-fitted integrals, whether or not the density matrix is symmetric. -/
theorem C122_fast_veffa (L : LasEnergy.Las K) (naux : Nat) (b : Nat → Nat → K) (bmPu : Nat → Nat → Nat → K)
    (d : Bool → Nat → Nat → K) (hg : ∀ μ ν l k, L.g μ ν l k = eri naux b μ ν l k)
    (hb : ∀ m < L.nao, ∀ P < naux, ∀ u < L.ncas, bmPu m P u = half L.nao b (fun μ u => L.mo μ (L.ncore + u)) m u P)
    (σ : Bool) (μ ν : Nat) (hμ : μ < L.nao) (hν : ν < L.nao) :
    fastVeffa L naux b bmPu d σ μ ν =
      L.veffSpin (fun σ => Spec.LasEnergy.toAO L.ncas (fun μ u => L.mo μ (L.ncore + u)) (d σ)) σ μ ν := by
  unfold fastVeffa LasEnergy.Las.veffSpin LasEnergy.Las.getJ LasEnergy.Las.getK
  simp only [hg]
  congr 1
  · rw [coulomb, ← Finset.sum_add_distrib]
    refine Finset.sum_congr rfl fun l _ => ?_
    rw [← Finset.sum_add_distrib]
    refine Finset.sum_congr rfl fun k _ => ?_
    rw [← mul_add]
    congr 1
    unfold Spec.LasEnergy.toAO
    rw [← Finset.sum_add_distrib]
    refine Finset.sum_congr rfl fun p _ => ?_
    rw [Finset.mul_sum, ← Finset.sum_add_distrib]
    exact Finset.sum_congr rfl fun q _ => by ring
  · rw [← exchange]
    refine Finset.sum_congr rfl fun P hP => Finset.sum_congr rfl fun v hv => ?_
    rw [hb ν hν P (Finset.mem_range.1 hP) v (Finset.mem_range.1 hv)]
    congr 1
    exact Finset.sum_congr rfl fun u hu => by rw [hb μ hμ P (Finset.mem_range.1 hP) u (Finset.mem_range.1 hu)]

example : ∃ h2 bmPu, h2effDf (1 / 2 : Rat) dfLas dfBlocks = some (h2, bmPu) ∧
    fastVeffa dfLas 2 dfCols bmPu (fun σ p q => if σ then 0 else p + 2 * q) true 0 1 = 630 := by
  obtain ⟨h2, bm, h, -, hb⟩ := dfBlocks_run
  refine ⟨h2, bm, h, ?_⟩
  rw [C122_fast_veffa dfLas 2 dfCols bm _ (fun _ _ _ _ => rfl) hb true 0 1 (by decide) (by decide)]
  norm_num [LasEnergy.Las.veffSpin, LasEnergy.Las.getJ, LasEnergy.Las.getK, Spec.LasEnergy.toAO, dfLas, LasEnergy.Las.ncas,
    Finset.sum_range_succ, eri, full, dfCols]

/-- C122 does not hold for every shape: the position at which the row of an orbital is stored is computed in 32 bits. With two
orbitals, 65536 columns and 65536 auxiliary functions, both rows are added up in the place of the first. An array in column-major
order, which the constructor accepts, is not contracted at all. -/
theorem C122_shape_violated [IsStrictOrderedRing K] :
    (∃ v, contract1 (0 : K) true 2 65536 65536 (fun _ _ => 1) (fun _ _ => 1) [0, 1] [(0, 0), (0, 1)] = some v ∧
      v 0 0 0 = 4 ∧ half 2 (fun _ _ => (1 : K)) (fun _ _ => 1) 0 0 0 = 2) ∧
    ∀ (thresh : K) nao naux nmo b cmat sort sched, contract1 thresh false nao naux nmo b cmat sort sched = none := by
  refine ⟨⟨_, contract1_true .., ?_, ?_⟩, fun _ _ _ _ _ _ _ _ => rfl⟩
  · obtain ⟨n, hn⟩ : ∃ n, n = 65536 := ⟨_, rfl⟩
    rw [← hn]
    have hrow : ∀ i, i < 2 → ∀ u P, rowVal (0 : K) 2 n (fun _ _ => 1) (fun _ _ => 1) i u P = 2 := by
      intro i _ u P
      have hm : ∀ j, metric (0 : K) n (fun _ _ => 1) i j = true := by
        intro j
        have : (0 : K) < n := by rw [hn]; norm_num
        simp [metric, this]
      unfold rowVal
      simp only [hm, if_true, mul_one, Finset.sum_range_succ, Finset.sum_range_zero]
      norm_num
    unfold cval ddmat
    rw [List.foldl_cons, List.foldl_cons, List.foldl_nil,
      row_add (0 : K) 2 n n (fun _ _ => 1) (fun _ _ => 1) [0, 1] _ (0, 1) (by norm_num) (by rw [hn]; norm_num) (by decide),
      row_add (0 : K) 2 n n (fun _ _ => 1) (fun _ _ => 1) [0, 1] _ (0, 0) (by norm_num) (by rw [hn]; norm_num) (by decide)]
    have h0 : u32 (([0, 1] : List Nat).getD ((0, 0) : Nat × Nat).2 0 * n * n) = 0 := by subst hn; norm_num [u32]
    have h1 : u32 (([0, 1] : List Nat).getD ((0, 1) : Nat × Nat).2 0 * n * n) = 0 := by subst hn; norm_num [u32]
    rw [h0, h1, if_pos, if_pos, hrow _ (by decide), hrow _ (by decide)]
    · norm_num
    all_goals
      subst hn
      norm_num
  · norm_num [half, full, Finset.sum_range_succ]

end
end Verif.Props
