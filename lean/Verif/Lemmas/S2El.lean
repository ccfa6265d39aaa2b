import Verif.Spec.HamS2
import Verif.Lemmas.TdmProd
import Verif.Lemmas.FsuccSpin
import Mathlib.Algebra.BigOperators.Ring.Finset
import Mathlib.Algebra.BigOperators.Field
import Mathlib.Tactic.LinearCombination
/-!
# Lemmas: matrix elements of the Hamiltonian and of the total spin from density matrices
-/
namespace Verif.Tdm
open Verif.Spec.Tdm
open Verif.Spec.Fsucc (nOcc nAbove)

variable {K : Type} [Field K]

theorem xor_pow_lt {N p A : Nat} (hp : p < N) (hA : A < 2 ^ N) : A ^^^ 2 ^ p < 2 ^ N :=
  Nat.xor_lt_two_pow hA (Nat.pow_lt_pow_right (by omega) hp)

theorem xor_xor_self (A x : Nat) : A ^^^ x ^^^ x = A := by rw [Nat.xor_assoc, Nat.xor_self, Nat.xor_zero]

theorem sum_xor {R : Type} [AddCommMonoid R] (N p : Nat) (hp : p < N) (F : Nat → R) :
    ∑ A ∈ Finset.range (2 ^ N), F (A ^^^ 2 ^ p) = ∑ A ∈ Finset.range (2 ^ N), F A := by
  refine Finset.sum_nbij' (fun A => A ^^^ 2 ^ p) (fun A => A ^^^ 2 ^ p) ?_ ?_ ?_ ?_ ?_
  · intro A hA; simp only [Finset.mem_range] at *; exact xor_pow_lt hp hA
  · intro A hA; simp only [Finset.mem_range] at *; exact xor_pow_lt hp hA
  · intro A _; exact xor_xor_self _ _
  · intro A _; exact xor_xor_self _ _
  · intro A _; rfl

theorem testBit_xor_self (A p : Nat) : (A ^^^ 2 ^ p).testBit p = !A.testBit p := by
  rw [Nat.testBit_xor, Nat.testBit_two_pow]; simp

/-- The creation operator is the adjoint of the annihilation operator. -/
theorem ovl_cre (N : Nat) (s : Bool) (p : Nat) (hp : p < N) (φ χ : Vec K) : ovl N φ (cre N s p χ) = ovl N (ann N s p φ) χ := by
  unfold ovl
  cases s
  · rw [← sum_xor N p hp]
    refine Finset.sum_congr rfl fun A _ => Finset.sum_congr rfl fun B _ => ?_
    unfold cre ann
    simp only [Bool.false_eq_true, if_false]
    rw [testBit_xor_self, Verif.Fsucc.nAbove_xor, xor_xor_self]
    cases A.testBit p <;> simp
    ring
  · refine Finset.sum_congr rfl fun A _ => ?_
    rw [← sum_xor N p hp]
    refine Finset.sum_congr rfl fun B _ => ?_
    unfold cre ann
    simp only [if_true]
    rw [testBit_xor_self, Verif.Fsucc.nAbove_xor, xor_xor_self]
    cases B.testBit p <;> simp
    ring

theorem ovl_sum_right {ι : Type} (N : Nat) (S : Finset ι) (φ : Vec K) (f : ι → Vec K) :
    ovl N φ (fun A B => ∑ i ∈ S, f i A B) = ∑ i ∈ S, ovl N φ (f i) := by
  unfold ovl
  simp only [Finset.mul_sum]
  rw [Finset.sum_comm]
  conv_rhs => rw [Finset.sum_comm]
  have : ∀ B ∈ Finset.range (2 ^ N), ∀ g : Nat → ι → K, ∑ A ∈ Finset.range (2 ^ N), ∑ i ∈ S, g A i = ∑ i ∈ S, ∑ A ∈ Finset.range (2 ^ N), g A i :=
    fun _ _ g => Finset.sum_comm
  rw [Finset.sum_comm]
  refine Finset.sum_congr rfl fun A _ => ?_
  rw [Finset.sum_comm]

theorem ovl_mul_right (N : Nat) (c : K) (φ ψ : Vec K) : ovl N φ (fun A B => c * ψ A B) = c * ovl N φ ψ := by
  unfold ovl
  simp only [Finset.mul_sum]
  refine Finset.sum_congr rfl fun A _ => Finset.sum_congr rfl fun B _ => ?_
  ring

theorem ovl_add_right (N : Nat) (φ ψ χ : Vec K) : ovl N φ (fun A B => ψ A B + χ A B) = ovl N φ ψ + ovl N φ χ := by
  unfold ovl
  simp only [mul_add, Finset.sum_add_distrib]

/-- Elements of the Hamiltonian. -/
theorem hamEl_eq (N : Nat) (h1 : Bool → Nat → Nat → K) (h2 : Nat → Nat → Nat → Nat → K) (φ χ : Vec K) :
    hamEl N h1 h2 φ χ =
      (∑ s : Bool, ∑ p ∈ Finset.range N, ∑ q ∈ Finset.range N, h1 s p q * tdm1 N φ χ s p q) +
      1 / 2 * ∑ s : Bool, ∑ t : Bool, ∑ p ∈ Finset.range N, ∑ q ∈ Finset.range N, ∑ r ∈ Finset.range N, ∑ u ∈ Finset.range N,
        h2 p q r u * tdm2 N φ χ s t p q r u := by
  unfold hamEl hamOp
  rw [ovl_add_right, ovl_mul_right]
  congr 1
  · refine (ovl_sum_right N _ φ (fun s A B => _)).trans (Finset.sum_congr rfl fun s _ => ?_)
    refine (ovl_sum_right N _ φ (fun p A B => _)).trans (Finset.sum_congr rfl fun p hp => ?_)
    refine (ovl_sum_right N _ φ (fun q A B => _)).trans (Finset.sum_congr rfl fun q _ => ?_)
    refine (ovl_mul_right N _ φ _).trans ?_
    rw [ovl_cre N s p (Finset.mem_range.mp hp)]
    rfl
  · congr 1
    refine (ovl_sum_right N _ φ (fun s A B => _)).trans (Finset.sum_congr rfl fun s _ => ?_)
    refine (ovl_sum_right N _ φ (fun t A B => _)).trans (Finset.sum_congr rfl fun t _ => ?_)
    refine (ovl_sum_right N _ φ (fun p A B => _)).trans (Finset.sum_congr rfl fun p hp => ?_)
    refine (ovl_sum_right N _ φ (fun q A B => _)).trans (Finset.sum_congr rfl fun q _ => ?_)
    refine (ovl_sum_right N _ φ (fun r A B => _)).trans (Finset.sum_congr rfl fun r hr => ?_)
    refine (ovl_sum_right N _ φ (fun u A B => _)).trans (Finset.sum_congr rfl fun u _ => ?_)
    refine (ovl_mul_right N _ φ _).trans ?_
    rw [ovl_cre N s p (Finset.mem_range.mp hp), ovl_cre N t r (Finset.mem_range.mp hr)]
    rfl

/-- Number of electrons of spin `s`. -/
def num (N : Nat) (s : Bool) (A B : Nat) : Nat := if s then nOcc 0 N B else nOcc 0 N A

/-- The string pair without the electron in orbital `p` of spin `s`. -/
def rem (s : Bool) (p A B : Nat) : Nat × Nat := if s then (A, B ^^^ 2 ^ p) else (A ^^^ 2 ^ p, B)

/-- Orbital `p` of spin `s` is occupied. -/
def occ (s : Bool) (p A B : Nat) : Bool := if s then B.testBit p else A.testBit p

theorem neg_one_sq_pow (n : Nat) : ((-1 : K) ^ n) * (-1) ^ n = 1 := by
  rw [← mul_pow]; norm_num

theorem sum_ann (N : Nat) (s : Bool) (φ χ : Vec K) (w : Nat → Nat → K) :
    (∑ p ∈ Finset.range N, ∑ A ∈ Finset.range (2 ^ N), ∑ B ∈ Finset.range (2 ^ N),
      w A B * (ann N s p φ A B * ann N s p χ A B)) =
    ∑ A ∈ Finset.range (2 ^ N), ∑ B ∈ Finset.range (2 ^ N),
      (∑ p ∈ Finset.range N, if occ s p A B then w (rem s p A B).1 (rem s p A B).2 else 0) * (φ A B * χ A B) := by
  have e : ∀ p ∈ Finset.range N, (∑ A ∈ Finset.range (2 ^ N), ∑ B ∈ Finset.range (2 ^ N),
      w A B * (ann N s p φ A B * ann N s p χ A B)) = ∑ A ∈ Finset.range (2 ^ N), ∑ B ∈ Finset.range (2 ^ N),
      (if occ s p A B then w (rem s p A B).1 (rem s p A B).2 else 0) * (φ A B * χ A B) := by
    intro p hp
    rw [Finset.mem_range] at hp
    cases s
    · rw [← sum_xor N p hp]
      refine Finset.sum_congr rfl fun A _ => Finset.sum_congr rfl fun B _ => ?_
      unfold ann occ rem
      simp only [Bool.false_eq_true, if_false]
      rw [testBit_xor_self, xor_xor_self]
      cases A.testBit p <;> simp
      left
      linear_combination φ A B * χ A B * neg_one_sq_pow (K := K) (nAbove N (A ^^^ 2 ^ p) p)
    · refine Finset.sum_congr rfl fun A _ => ?_
      rw [← sum_xor N p hp]
      refine Finset.sum_congr rfl fun B _ => ?_
      unfold ann occ rem
      simp only [if_true]
      rw [testBit_xor_self, xor_xor_self]
      cases B.testBit p <;> simp
      left
      linear_combination φ A B * χ A B * neg_one_sq_pow (K := K) (nOcc 0 N A + nAbove N (B ^^^ 2 ^ p) p)
  rw [Finset.sum_congr rfl e, Finset.sum_comm]
  refine Finset.sum_congr rfl fun A _ => ?_
  rw [Finset.sum_comm]
  refine Finset.sum_congr rfl fun B _ => ?_
  rw [Finset.sum_mul]

theorem nOcc_sum (N D : Nat) : ((nOcc 0 N D : Nat) : K) = ∑ p ∈ Finset.range N, if D.testBit p then 1 else 0 := by
  unfold nOcc
  rw [Finset.sum_ite, Finset.sum_const_zero, add_zero, Finset.sum_const, nsmul_eq_mul, mul_one]
  congr 3
  ext x; simp

theorem num_sum (N : Nat) (s : Bool) (A B : Nat) (c : K) :
    (∑ p ∈ Finset.range N, if occ s p A B then c else 0) = (num N s A B : K) * c := by
  unfold num occ
  cases s
  · simp only [Bool.false_eq_true, if_false]
    rw [nOcc_sum, Finset.sum_mul]
    refine Finset.sum_congr rfl fun p _ => ?_
    cases A.testBit p <;> simp
  · simp only [if_true]
    rw [nOcc_sum, Finset.sum_mul]
    refine Finset.sum_congr rfl fun p _ => ?_
    cases B.testBit p <;> simp

theorem nOcc_rem (N p D : Nat) (hp : p < N) (h : D.testBit p = true) : nOcc 0 N (D ^^^ 2 ^ p) + 1 = nOcc 0 N D := by
  have := nOcc_xor N p (D ^^^ 2 ^ p) hp (by rw [testBit_xor_self, h]; rfl)
  rw [xor_xor_self] at this
  exact this.symm

theorem num_rem (N : Nat) (s t : Bool) (p A B : Nat) (hp : p < N) (h : occ s p A B = true) :
    (num N t (rem s p A B).1 (rem s p A B).2 : K) = num N t A B - if s = t then 1 else 0 := by
  unfold num rem
  unfold occ at h
  cases s <;> cases t <;> simp only [Bool.false_eq_true, if_false, if_true, reduceCtorEq, sub_zero] at h ⊢
  · rw [← nOcc_rem N p A hp h]; push_cast; ring
  · rw [← nOcc_rem N p B hp h]; push_cast; ring

/-- The trace of the one-body matrix. -/
theorem tr1 (N : Nat) (s : Bool) (φ χ : Vec K) : (∑ p ∈ Finset.range N, tdm1 N φ χ s p p) =
    ∑ A ∈ Finset.range (2 ^ N), ∑ B ∈ Finset.range (2 ^ N), (num N s A B : K) * (φ A B * χ A B) := by
  have h := sum_ann N s φ χ (fun _ _ => 1)
  simp only [one_mul, num_sum, mul_one] at h
  exact h

/-- The trace of the two-body matrix. -/
theorem tr2 (N : Nat) (s t : Bool) (φ χ : Vec K) : (∑ p ∈ Finset.range N, ∑ r ∈ Finset.range N, tdm2 N φ χ s t p p r r) =
    ∑ A ∈ Finset.range (2 ^ N), ∑ B ∈ Finset.range (2 ^ N),
      ((num N s A B : K) * (num N t A B - if s = t then 1 else 0)) * (φ A B * χ A B) := by
  have h := sum_ann N s φ χ (fun A B => (num N t A B : K))
  rw [show (∑ p ∈ Finset.range N, ∑ r ∈ Finset.range N, tdm2 N φ χ s t p p r r) = _ from
    Finset.sum_congr rfl fun p _ => tr1 N t (ann N s p φ) (ann N s p χ), h]
  refine Finset.sum_congr rfl fun A _ => Finset.sum_congr rfl fun B _ => ?_
  congr 1
  rw [← num_sum]
  refine Finset.sum_congr rfl fun p hp => ?_
  by_cases ho : occ s p A B = true
  · rw [if_pos ho, if_pos ho, num_rem N s t p A B (Finset.mem_range.mp hp) ho]
  · rw [if_neg ho, if_neg ho]

/-- Anticommutation of an annihilator and a creator of spin up. -/
theorem ann_cre_up (N p q : Nat) (hp : p < N) (hq : q < N) (ψ : Vec K) (A B : Nat) :
    ann N false p (cre N false q ψ) A B = (if p = q then ψ A B else 0) - cre N false q (ann N false p ψ) A B := by
  unfold ann cre
  simp only [Bool.false_eq_true, if_false]
  by_cases hpq : p = q
  · subst hpq
    rw [testBit_xor_self, Verif.Fsucc.nAbove_xor, xor_xor_self]
    have := neg_one_sq_pow (K := K) (nAbove N A p)
    cases A.testBit p <;> simp
    · linear_combination ψ A B * this
    · linear_combination ψ A B * this
  · have xc : A ^^^ 2 ^ p ^^^ 2 ^ q = A ^^^ 2 ^ q ^^^ 2 ^ p := by
      rw [Nat.xor_assoc, Nat.xor_assoc, Nat.xor_comm (2 ^ p)]
    have n1 := Verif.Fsucc.neg_one_nAbove_xor (K := K) (norb := N) A p q hp hpq
    have n2 := Verif.Fsucc.neg_one_nAbove_xor (K := K) (norb := N) A q p hq (Ne.symm hpq)
    rw [testBit_xor_pow A p q (Ne.symm hpq), testBit_xor_pow A q p hpq, if_neg hpq, zero_sub, n1, n2, xc]
    by_cases h1 : A.testBit p = true
    · by_cases h2 : A.testBit q = true <;> simp [h1, h2]
    · by_cases h2 : A.testBit q = true
      · rw [if_neg h1, if_pos h2, if_pos h2, if_neg h1]
        rcases Nat.lt_or_gt_of_ne hpq with h | h
        · rw [if_pos h, if_neg (show ¬ q < p by omega)]; ring
        · rw [if_pos (show q < p from h), if_neg (show ¬ p < q by omega)]; ring
      · simp [h1, h2]

theorem ovl_congr_right (N : Nat) (φ ψ ψ' : Vec K) (h : ∀ A B, ψ A B = ψ' A B) : ovl N φ ψ = ovl N φ ψ' := by
  unfold ovl
  simp only [h]

theorem ovl_sub_right (N : Nat) (φ ψ χ : Vec K) : ovl N φ (fun A B => ψ A B - χ A B) = ovl N φ ψ - ovl N φ χ := by
  unfold ovl
  simp only [mul_sub, Finset.sum_sub_distrib]

/-- `⟨S₋S₊⟩`. -/
theorem ovl_flip (N : Nat) (φ χ : Vec K) : ovl N φ (sMinus N (sPlus N χ)) =
    (∑ p ∈ Finset.range N, tdm1 N φ χ true p p) - ∑ p ∈ Finset.range N, ∑ q ∈ Finset.range N, tdm2 N φ χ true false p q q p := by
  have e1 : ∀ p ∈ Finset.range N, ovl N φ (cre N true p (ann N false p (sPlus N χ))) =
      ∑ q ∈ Finset.range N, ((if p = q then ovl N (ann N true p φ) (ann N true q χ) else 0) - tdm2 N φ χ true false p q q p) := by
    intro p hp
    rw [Finset.mem_range] at hp
    rw [ovl_cre N true p hp]
    have : ann N false p (sPlus N χ) = fun A B => ∑ q ∈ Finset.range N, ann N false p (cre N false q (ann N true q χ)) A B := by
      funext A B
      unfold sPlus
      conv_lhs => unfold ann
      conv_rhs => enter [2, q]; unfold ann
      simp only [Bool.false_eq_true, if_false]
      split
      · simp
      · rw [Finset.mul_sum]
    rw [this, ovl_sum_right]
    refine Finset.sum_congr rfl fun q hq => ?_
    rw [Finset.mem_range] at hq
    rw [ovl_congr_right N _ _ _ (ann_cre_up N p q hp hq (ann N true q χ)), ovl_sub_right, ovl_cre N false q hq]
    congr 1
    split
    · rfl
    · unfold ovl; simp
  have e2 : ovl N φ (sMinus N (sPlus N χ)) = ∑ p ∈ Finset.range N, ovl N φ (cre N true p (ann N false p (sPlus N χ))) :=
    ovl_sum_right N _ φ (fun p => cre N true p (ann N false p (sPlus N χ)))
  rw [e2, Finset.sum_congr rfl e1]
  simp only [Finset.sum_sub_distrib]
  congr 1
  refine Finset.sum_congr rfl fun p hp => ?_
  rw [Finset.sum_ite_eq, if_pos hp]
  rfl

/-- Elements of the square of the total spin. -/
theorem s2El_eq (N : Nat) (h2 : (2 : K) ≠ 0) (φ χ : Vec K) :
    s2El N φ χ = 3 / 4 * (∑ p ∈ Finset.range N, (tdm1 N φ χ false p p + tdm1 N φ χ true p p)) +
      1 / 4 * (∑ p ∈ Finset.range N, ∑ r ∈ Finset.range N, (tdm2 N φ χ false false p p r r + tdm2 N φ χ true true p p r r -
        tdm2 N φ χ false true p p r r - tdm2 N φ χ true false p p r r)) -
      1 / 2 * ∑ p ∈ Finset.range N, ∑ q ∈ Finset.range N, (tdm2 N φ χ false true p q q p + tdm2 N φ χ true false p q q p) := by
  have hsw : (∑ p ∈ Finset.range N, ∑ q ∈ Finset.range N, tdm2 N φ χ false true p q q p) =
      ∑ p ∈ Finset.range N, ∑ q ∈ Finset.range N, tdm2 N φ χ true false p q q p := by
    rw [Finset.sum_comm]
    refine Finset.sum_congr rfl fun q hq => Finset.sum_congr rfl fun p hp => ?_
    rw [Finset.mem_range] at hp hq
    exact tdm2_swap N φ χ false true p q q p hp hq hq hp
  have h4 : (4 : K) ≠ 0 := by
    have : (4 : K) = 2 * 2 := by norm_num
    rw [this]; exact mul_ne_zero h2 h2
  unfold s2El
  rw [show s2Op N χ = fun A B => (sMinus N (sPlus N χ) A B + sZ N (sZ N χ) A B) + sZ N χ A B from rfl, ovl_add_right, ovl_add_right,
    ovl_flip]
  simp only [Finset.sum_add_distrib, Finset.sum_sub_distrib]
  rw [hsw, tr1, tr1, tr2, tr2, tr2, tr2]
  generalize (∑ p ∈ Finset.range N, ∑ q ∈ Finset.range N, tdm2 N φ χ true false p q q p) = X
  have hz : ovl N φ (sZ N χ) = (1 / 2) * ((∑ A ∈ Finset.range (2 ^ N), ∑ B ∈ Finset.range (2 ^ N), (num N false A B : K) * (φ A B * χ A B)) -
      ∑ A ∈ Finset.range (2 ^ N), ∑ B ∈ Finset.range (2 ^ N), (num N true A B : K) * (φ A B * χ A B)) := by
    unfold ovl sZ num
    rw [← Finset.sum_sub_distrib, Finset.mul_sum]
    refine Finset.sum_congr rfl fun A _ => ?_
    rw [← Finset.sum_sub_distrib, Finset.mul_sum]
    refine Finset.sum_congr rfl fun B _ => ?_
    simp only [Bool.false_eq_true, if_false, if_true]
    ring
  have hzz : ovl N φ (sZ N (sZ N χ)) = (1 / 4) * ∑ A ∈ Finset.range (2 ^ N), ∑ B ∈ Finset.range (2 ^ N),
      (((num N false A B : K) - num N true A B) * ((num N false A B : K) - num N true A B)) * (φ A B * χ A B) := by
    unfold ovl sZ num
    rw [Finset.mul_sum]
    refine Finset.sum_congr rfl fun A _ => ?_
    rw [Finset.mul_sum]
    refine Finset.sum_congr rfl fun B _ => ?_
    simp only [Bool.false_eq_true, if_false, if_true]
    have hh : ((1 : K) / 2) * (1 / 2) = 1 / 4 := by rw [div_mul_div_comm]; norm_num
    linear_combination ((nOcc 0 N A : K) - nOcc 0 N B) * ((nOcc 0 N A : K) - nOcc 0 N B) * (φ A B * χ A B) * hh
  have hexp : ∀ (s t : Bool), (∑ A ∈ Finset.range (2 ^ N), ∑ B ∈ Finset.range (2 ^ N),
      ((num N s A B : K) * (num N t A B - if s = t then 1 else 0)) * (φ A B * χ A B)) =
      (∑ A ∈ Finset.range (2 ^ N), ∑ B ∈ Finset.range (2 ^ N), ((num N s A B : K) * num N t A B) * (φ A B * χ A B)) -
        if s = t then ∑ A ∈ Finset.range (2 ^ N), ∑ B ∈ Finset.range (2 ^ N), (num N s A B : K) * (φ A B * χ A B) else 0 := by
    intro s t
    by_cases hst : s = t
    · simp only [if_pos hst]
      rw [← Finset.sum_sub_distrib]
      refine Finset.sum_congr rfl fun A _ => ?_
      rw [← Finset.sum_sub_distrib]
      refine Finset.sum_congr rfl fun B _ => ?_
      ring
    · simp only [if_neg hst, sub_zero]
  rw [hz, hzz]
  rw [show (∑ A ∈ Finset.range (2 ^ N), ∑ B ∈ Finset.range (2 ^ N),
      (((num N false A B : K) - num N true A B) * ((num N false A B : K) - num N true A B)) * (φ A B * χ A B)) =
      (∑ A ∈ Finset.range (2 ^ N), ∑ B ∈ Finset.range (2 ^ N), ((num N false A B : K) * num N false A B) * (φ A B * χ A B)) +
      (∑ A ∈ Finset.range (2 ^ N), ∑ B ∈ Finset.range (2 ^ N), ((num N true A B : K) * num N true A B) * (φ A B * χ A B)) -
      (∑ A ∈ Finset.range (2 ^ N), ∑ B ∈ Finset.range (2 ^ N), ((num N false A B : K) * num N true A B) * (φ A B * χ A B)) -
      (∑ A ∈ Finset.range (2 ^ N), ∑ B ∈ Finset.range (2 ^ N), ((num N true A B : K) * num N false A B) * (φ A B * χ A B)) by
    simp only [← Finset.sum_add_distrib, ← Finset.sum_sub_distrib]
    refine Finset.sum_congr rfl fun A _ => Finset.sum_congr rfl fun B _ => ?_
    ring]
  rw [hexp false false, hexp true true, hexp false true, hexp true false]
  simp only [if_true, reduceCtorEq, if_false, sub_zero]
  generalize (∑ A ∈ Finset.range (2 ^ N), ∑ B ∈ Finset.range (2 ^ N), (num N false A B : K) * (φ A B * χ A B)) = a
  generalize (∑ A ∈ Finset.range (2 ^ N), ∑ B ∈ Finset.range (2 ^ N), (num N true A B : K) * (φ A B * χ A B)) = b
  have q3 : (3 : K) / 4 = 1 / 2 + 1 / 4 := by
    rw [div_add_div _ _ h2 h4, div_eq_div_iff h4 (mul_ne_zero h2 h4)]; norm_num
  have q1 : (1 : K) / 2 + 1 / 2 = 1 := by rw [← two_mul, mul_one_div_cancel h2]
  linear_combination (-a - b) * q3 + (-b + X) * q1

end Verif.Tdm
