import Verif.Model.RdmUtil
import Verif.Props.PsEnergy
import Mathlib.Algebra.BigOperators.Field
import Mathlib.Tactic.FieldSimp
import Mathlib.Algebra.CharZero.Defs
import Mathlib.Tactic.NormNum
/-!
# C51, C52, C53, C79, C80: cumulants, energy decomposition, energy and spin from density matrices
-/
namespace Verif.Props
open Verif.RdmUtil

variable {K : Type} [Field K]

/-- **C51**, spin-summed two-body arrays, with a spin-summed or spin-separated one-body matrix. -/
theorem C51_summed (t : Ten K) (d : OneRdm K) : get2RDM (get2CDM t d) d = t ∧ get2CDM (get2RDM t d) d = t := by
  constructor <;> funext p q r s <;> simp only [get2RDM, get2CDM] <;> ring

/-- **C51**, spin-separated two-body arrays. -/
theorem C51_separated (t : Three K) (d : OneRdm K) : get2RDMs (get2CDMs t d) d = t ∧ get2CDMs (get2RDMs t d) d = t := by
  obtain ⟨aa, ab, bb⟩ := t
  constructor <;> simp only [get2RDMs, get2CDMs, Three.mk.injEq] <;>
    refine ⟨?_, ?_, ?_⟩ <;> funext p q r s <;> ring

/-- **C51**: the two forms agree. If the spin-summed array is `aa + ab + ba + bb`, so is its cumulant. -/
theorem C51_consistent (t : Three K) (a b : Mat K) (p q r s : Nat) :
    get2CDM (fun p q r s => t.aa p q r s + t.ab p q r s + t.ab r s p q + t.bb p q r s) (.sep a b) p q r s =
      (get2CDMs t (.sep a b)).aa p q r s + (get2CDMs t (.sep a b)).ab p q r s + (get2CDMs t (.sep a b)).ab r s p q +
        (get2CDMs t (.sep a b)).bb p q r s := by
  simp only [get2CDM, get2CDMs, outer, transpose0321, OneRdm.spin, OneRdm.total]
  ring

/-- **C51**: the cumulant is `P_pqrs - D_pq D_rs + Σ_σ D^σ_ps D^σ_rq`, for a spin-summed one-body matrix
`P_pqrs - D_pq D_rs + D_ps D_rq / 2`. -/
theorem C51_formula [CharZero K] (t : Ten K) (a b d : Mat K) (p q r s : Nat) :
    get2CDM t (.sep a b) p q r s = t p q r s - (a p q + b p q) * (a r s + b r s) + (a p s * a r q + b p s * b r q) ∧
      get2CDM t (.summed d) p q r s = t p q r s - d p q * d r s + d p s * d r q / 2 := by
  simp only [get2CDM, outer, transpose0321, OneRdm.spin, OneRdm.total]
  constructor
  · ring
  · field_simp
    ring

example : get2CDM (fun _ _ _ _ => (1 : ℚ)) (.summed (fun p q => (p + q : ℚ))) 1 2 3 4 = 1 - 3 * 7 + 5 * 5 / 2 := by
  norm_num [get2CDM, outer, transpose0321, OneRdm.spin, OneRdm.total]

/-- **C52**. The entries of the orbital decomposition sum to the one-body energy plus half the two-body energy; a part whose
integrals or densities are not given does not contribute. -/
theorem C52_sum [CharZero K] (n : Nat) (one : Option (Mat K × Mat K)) (two : Option (Ten K × Ten K)) :
    ∑ x ∈ Finset.range n, orbDecomp n one two x =
      (match one with
        | none => 0
        | some (h, d) => ∑ i ∈ Finset.range n, ∑ j ∈ Finset.range n, h i j * d i j) +
      (match two with
        | none => 0
        | some (g, t) => 2⁻¹ * ∑ i ∈ Finset.range n, ∑ j ∈ Finset.range n, ∑ k ∈ Finset.range n, ∑ l ∈ Finset.range n,
            g i j k l * t i j k l) := by
  have h2 : ∀ F : Mat K, (∑ x ∈ Finset.range n, ∑ i ∈ Finset.range n, F i x) =
      ∑ i ∈ Finset.range n, ∑ j ∈ Finset.range n, F i j := fun F => Finset.sum_comm
  have h4j : ∀ F : Ten K, (∑ x ∈ Finset.range n, ∑ i ∈ Finset.range n, ∑ k ∈ Finset.range n, ∑ l ∈ Finset.range n, F i x k l) =
      ∑ i ∈ Finset.range n, ∑ j ∈ Finset.range n, ∑ k ∈ Finset.range n, ∑ l ∈ Finset.range n, F i j k l :=
    fun F => Finset.sum_comm
  have h4k : ∀ F : Ten K, (∑ x ∈ Finset.range n, ∑ i ∈ Finset.range n, ∑ j ∈ Finset.range n, ∑ l ∈ Finset.range n, F i j x l) =
      ∑ i ∈ Finset.range n, ∑ j ∈ Finset.range n, ∑ k ∈ Finset.range n, ∑ l ∈ Finset.range n, F i j k l := by
    intro F
    rw [Finset.sum_comm]
    exact Finset.sum_congr rfl (fun i _ => Finset.sum_comm)
  have h4l : ∀ F : Ten K, (∑ x ∈ Finset.range n, ∑ i ∈ Finset.range n, ∑ j ∈ Finset.range n, ∑ k ∈ Finset.range n, F i j k x) =
      ∑ i ∈ Finset.range n, ∑ j ∈ Finset.range n, ∑ k ∈ Finset.range n, ∑ l ∈ Finset.range n, F i j k l := by
    intro F
    rw [Finset.sum_comm]
    refine Finset.sum_congr rfl (fun i _ => ?_)
    rw [Finset.sum_comm]
    exact Finset.sum_congr rfl (fun j _ => Finset.sum_comm)
  unfold orbDecomp
  cases one with
  | none =>
    cases two with
    | none => simp
    | some gt =>
      simp only [zero_add, Finset.sum_add_distrib, ← Finset.mul_sum]
      rw [h4j (fun i j k l => gt.1 i j k l * gt.2 i j k l), h4k (fun i j k l => gt.1 i j k l * gt.2 i j k l),
        h4l (fun i j k l => gt.1 i j k l * gt.2 i j k l)]
      field_simp
      ring
  | some hd =>
    cases two with
    | none =>
      simp only [zero_add, add_zero, Finset.sum_add_distrib, ← Finset.mul_sum]
      rw [h2 (fun i j => hd.1 i j * hd.2 i j)]
      field_simp
      ring
    | some gt =>
      simp only [zero_add, Finset.sum_add_distrib, ← Finset.mul_sum]
      rw [h2 (fun i j => hd.1 i j * hd.2 i j), h4j (fun i j k l => gt.1 i j k l * gt.2 i j k l),
        h4k (fun i j k l => gt.1 i j k l * gt.2 i j k l), h4l (fun i j k l => gt.1 i j k l * gt.2 i j k l)]
      field_simp
      ring

example : (List.range 2).map (orbDecomp 2 (some ((fun i j => (i + j : ℚ)), fun i j => (i * j + 1 : ℚ))) none) = [1, 5] := by
  norm_num [orbDecomp, Finset.sum_range_succ, List.range, List.range.loop]

/-- Contraction of two raveled arrays. -/
def contract (a b : List K) : K := ((a.zip b).map (fun y => y.1 * y.2)).sum

/-- **C53**, what the function computes: the factor is one over the factorial of the number of axes, so that only a scalar
(constant) part has the physical weight. Missing: the physical weights 1 and 1/2, see `C53_violated`. -/
theorem C53_weights_partial (e0 d0 h1 d1 h2 d2 : List K) :
    getE [⟨0, e0⟩, ⟨2, h1⟩, ⟨4, h2⟩] [⟨0, d0⟩, ⟨2, d1⟩, ⟨4, d2⟩] =
      contract e0 d0 + 1 / 2 * contract h1 d1 + 1 / 24 * contract h2 d2 := by
  simp [getE, contract, Nat.factorial]

/-- **C53** fails: with a unit two-orbital one-body matrix the energy comes out halved. -/
theorem C53_violated : ¬ ∀ (h1 d1 h2 d2 : List ℚ),
    getE [⟨2, h1⟩, ⟨4, h2⟩] [⟨2, d1⟩, ⟨4, d2⟩] = contract h1 d1 + 1 / 2 * contract h2 d2 := by
  intro H
  have := H [1] [1] [0] [0]
  simp [getE, contract, Nat.factorial] at this

/-- **C79**. The spin expectation value is the docstring's `¼ (3N - Σ_pq (2 P_pqqp + P_ppqq))` for every density pair that
obeys `Σ_pq P_ppqq = N (N - 1)`. -/
theorem C79_formula [CharZero K] (n : Nat) (d : Mat K) (t : Ten K) (N : K) (hN : ∑ p ∈ Finset.range n, d p p = N)
    (htr : ∑ p ∈ Finset.range n, ∑ q ∈ Finset.range n, t p p q q = N * (N - 1)) :
    s2Exptval n d t false =
      (3 * N - ∑ p ∈ Finset.range n, ∑ q ∈ Finset.range n, (2 * t p q q p + t p p q q)) / 4 := by
  have h1 : ∀ p q, get2CDM t (.summed d) p q q p = t p q q p - d p q * d q p + d p p * d q q / 2 := fun p q =>
    (C51_formula t d d d p q q p).2
  unfold s2Exptval
  simp only [Bool.false_eq_true, if_false, h1, Finset.sum_sub_distrib, Finset.sum_add_distrib, ← Finset.sum_div,
    ← Finset.mul_sum, ← Finset.sum_mul]
  rw [htr, hN]
  field_simp
  ring

/-- **C79**: passing the cumulant with `cumulant=True` gives the same value. -/
theorem C79_cumulant (n : Nat) (d : Mat K) (t : Ten K) :
    s2Exptval n d (get2CDM t (.summed d)) true = s2Exptval n d t false := rfl

/-- Example: one doubly occupied orbital, `N = 2`, a singlet. -/
example : (∑ p ∈ Finset.range 1, ∑ q ∈ Finset.range 1, (fun _ _ _ _ => (2 : ℚ)) p p q q) = 2 * (2 - 1) ∧
    s2Exptval 1 (fun _ _ => (2 : ℚ)) (fun _ _ _ _ => 2) false = 0 := by
  constructor
  · norm_num
  · norm_num [s2Exptval, get2CDM, outer, transpose0321, OneRdm.spin, OneRdm.total]

/-- **C80**. In the densities of a product state of fragments, the two-body cumulant vanishes unless all four orbitals belong
to the same fragment. -/
theorem C80_product_cumulant (norb : List Nat) (fr : Nat → Verif.PsEnergy.FragDm K)
    (hd : ∀ f, Verif.Spec.PsEnergy.SymDensity (fr f).d) (p q r s : Nat) (hp : p < norb.sum) (hq : q < norb.sum)
    (hr : r < norb.sum) (hs : s < norb.sum)
    (hne : ¬ ∃ f, ∀ x ∈ [p, q, r, s], Verif.PsEnergy.lo norb f ≤ x ∧ x < Verif.PsEnergy.lo norb f + norb.getD f 0) :
    get2CDM (Verif.PsEnergy.makeRdm2 norb fr)
      (.sep (Verif.PsEnergy.makeRdm1s norb fr false) (Verif.PsEnergy.makeRdm1s norb fr true)) p q r s = 0 := by
  have hsp : ∀ x, x < norb.sum → ∀ f, (Verif.PsEnergy.lo norb f ≤ x ∧ x < Verif.PsEnergy.lo norb f + norb.getD f 0) ↔
      Verif.Spec.SymBlocks.spaceOf norb x = f := fun x hx f => SymBlocks.spaceOf_iff norb x hx f
  have hne' : ¬ (Verif.Spec.SymBlocks.spaceOf norb p = Verif.Spec.SymBlocks.spaceOf norb q ∧
      Verif.Spec.SymBlocks.spaceOf norb q = Verif.Spec.SymBlocks.spaceOf norb r ∧
      Verif.Spec.SymBlocks.spaceOf norb r = Verif.Spec.SymBlocks.spaceOf norb s) := by
    rintro ⟨a, b, c⟩
    apply hne
    refine ⟨Verif.Spec.SymBlocks.spaceOf norb s, ?_⟩
    intro x hx
    simp only [List.mem_cons, List.not_mem_nil, or_false] at hx
    rcases hx with rfl | rfl | rfl | rfl
    · exact (hsp _ hp _).2 (a.trans (b.trans c))
    · exact (hsp _ hq _).2 (b.trans c)
    · exact (hsp _ hr _).2 c
    · exact (hsp _ hs _).2 rfl
  have z : ∀ σ x y, x < norb.sum → y < norb.sum →
      Verif.Spec.SymBlocks.spaceOf norb x ≠ Verif.Spec.SymBlocks.spaceOf norb y →
      Verif.PsEnergy.makeRdm1s norb fr σ x y = 0 := by
    intro σ x y hx hy h
    rw [PsEnergy.makeRdm1s_eq norb fr σ x y hx hy, if_neg h]
  have zpq := fun σ => z σ p q hp hq
  have zrs := fun σ => z σ r s hr hs
  have zps := fun σ => z σ p s hp hs
  have zrq := fun σ => z σ q r hq hr
  have hsym := fun σ => PsEnergy.rdm1s_symm norb fr hd σ r q hr hq
  simp only [get2CDM, outer, transpose0321, OneRdm.spin, OneRdm.total]
  rw [PsEnergy.makeRdm2_eq norb fr p q r s hp hq hr hs, if_neg hne', hsym, hsym]
  generalize Verif.Spec.SymBlocks.spaceOf norb p = P at *
  generalize Verif.Spec.SymBlocks.spaceOf norb q = Q at *
  generalize Verif.Spec.SymBlocks.spaceOf norb r = R at *
  generalize Verif.Spec.SymBlocks.spaceOf norb s = S at *
  by_cases x1 : P = Q <;> by_cases x2 : R = S <;> by_cases x3 : P = S <;> by_cases x4 : Q = R <;>
    first
    | (exfalso; omega)
    | (split_ifs <;> first
        | (exfalso; omega)
        | (simp (disch := omega) only [zpq, zrs, zps, zrq]; ring1)
        | ring1)

/-- Example: orbitals 0, 0, 1, 1 of two one-orbital fragments; the two-body density there is not zero. -/
example : let fr : Nat → Verif.PsEnergy.FragDm ℚ := fun _ => ⟨fun _ _ _ => 1, fun _ _ _ _ => 2⟩
    (¬ ∃ f, ∀ x ∈ [0, 0, 1, 1], Verif.PsEnergy.lo [1, 1] f ≤ x ∧ x < Verif.PsEnergy.lo [1, 1] f + [1, 1].getD f 0) ∧
    Verif.PsEnergy.makeRdm2 [1, 1] fr 0 0 1 1 = 4 := by
  refine ⟨?_, ?_⟩
  swap
  · norm_num [Verif.PsEnergy.makeRdm2, Verif.PsEnergy.combinations2, Verif.PsEnergy.setPair, Verif.PsEnergy.setDiag,
      Verif.PsEnergy.makeRdm1s, Verif.PsEnergy.ins, Verif.PsEnergy.lo, Verif.PsEnergy.hi, List.range, List.range.loop]
  rintro ⟨f, hf⟩
  have h0 := hf 0 (by simp)
  have h1 := hf 1 (by simp)
  match f with
  | 0 => simp [Verif.PsEnergy.lo] at h1
  | 1 => simp [Verif.PsEnergy.lo] at h0
  | f + 2 => simp [Verif.PsEnergy.lo] at h0

end Verif.Props
