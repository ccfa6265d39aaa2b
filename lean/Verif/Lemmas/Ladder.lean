import Verif.Lemmas.TdmProd
import Verif.Lemmas.FciRdm
/-!
# Lemmas: creation operators and the spin ladder operators on CI vectors
-/
namespace Verif.Ladder
open Verif.Spec.Tdm Verif.Tdm
open Verif.Spec.Fsucc (nOcc nAbove)

variable {K : Type} [CommRing K]

theorem xor_xor (A x : Nat) : (A ^^^ 2 ^ x) ^^^ 2 ^ x = A := by rw [Nat.xor_assoc, Nat.xor_self, Nat.xor_zero]

theorem testBit_xor_same (D x : Nat) : (D ^^^ 2 ^ x).testBit x = !D.testBit x := by
  rw [Nat.testBit_xor, Nat.testBit_two_pow_self]; simp

theorem sA (N x p D : Nat) (hx : x < N) :
    ((-1 : K)) ^ nAbove N (D ^^^ 2 ^ x) p = (-1) ^ nAbove N D p * if p < x then -1 else 1 := by
  cases hb : D.testBit x
  · rw [nAbove_xor N x p D hx hb]
    split <;> ring
  · have := nAbove_xor N x p (D ^^^ 2 ^ x) hx (by rw [testBit_xor_same, hb]; rfl)
    rw [xor_xor] at this
    rw [this]
    split <;> ring

theorem sO (N x D : Nat) (hx : x < N) : ((-1 : K)) ^ nOcc 0 N (D ^^^ 2 ^ x) = -(-1) ^ nOcc 0 N D := by
  cases hb : D.testBit x
  · rw [nOcc_xor N x D hx hb]; ring
  · have := nOcc_xor N x (D ^^^ 2 ^ x) hx (by rw [testBit_xor_same, hb]; rfl)
    rw [xor_xor] at this
    rw [this]; ring

/-- Creation of an electron in orbital `p` with spin down (`s = true`) or up. -/
def cre (N : Nat) (s : Bool) (p : Nat) (ψ : Vec K) : Vec K := fun A B =>
  if s then (if B.testBit p then (-1) ^ (nOcc 0 N A + nAbove N B p) * ψ A (B ^^^ 2 ^ p) else 0)
  else (if A.testBit p then (-1) ^ nAbove N A p * ψ (A ^^^ 2 ^ p) B else 0)

theorem sq1 (n : Nat) : ((-1 : K)) ^ n * (-1) ^ n = 1 := by rw [← mul_pow]; simp

theorem ann_cre (N : Nat) (s t : Bool) (p r : Nat) (hp : p < N) (hr : r < N) (ψ : Vec K) (A B : Nat) :
    ann N t r (cre N s p ψ) A B + cre N s p (ann N t r ψ) A B = if s = t ∧ p = r then ψ A B else 0 := by
  have xc : ∀ A, (A ^^^ 2 ^ r) ^^^ 2 ^ p = (A ^^^ 2 ^ p) ^^^ 2 ^ r := by
    intro A; rw [Nat.xor_assoc, Nat.xor_assoc, Nat.xor_comm (2 ^ r)]
  unfold ann cre
  cases s <;> cases t
  · simp only [Bool.false_eq_true, if_false]
    by_cases hrp : p = r
    · subst hrp
      simp only [testBit_xor_same, xor_xor, sA N p p _ hp, lt_irrefl, if_false, mul_one, and_self, if_true]
      cases hb : A.testBit p
      · simp only [Bool.false_eq_true, if_false, Bool.not_false, if_true, add_zero]
        rw [← mul_assoc, sq1, one_mul]
      · simp only [if_true, Bool.not_true, Bool.false_eq_true, if_false, zero_add]
        rw [← mul_assoc, sq1, one_mul]
    · simp only [testBit_xor_pow A r p hrp, testBit_xor_pow A p r (Ne.symm hrp), sA N r p _ hr, sA N p r _ hp, xc, hrp, and_false,
        if_false]
      cases h1 : A.testBit p <;> cases h2 : A.testBit r <;> simp
      rcases Nat.lt_or_gt_of_ne hrp with h | h
      · rw [if_pos h, if_neg (show ¬ r < p by omega)]; ring
      · rw [if_pos (show r < p from h), if_neg (show ¬ p < r by omega)]; ring
  · simp only [Bool.false_eq_true, if_false, if_true, pow_add, sO N p _ hp, false_and]
    cases h1 : A.testBit p <;> cases h2 : B.testBit r <;> simp
    ring
  · simp only [Bool.false_eq_true, if_false, if_true, pow_add, sO N r _ hr, reduceCtorEq, false_and]
    cases h1 : B.testBit p <;> cases h2 : A.testBit r <;> simp
    ring
  · simp only [if_true, pow_add]
    by_cases hrp : p = r
    · subst hrp
      simp only [testBit_xor_same, xor_xor, sA N p p _ hp, lt_irrefl, if_false, mul_one, and_self, if_true]
      cases hb : B.testBit p
      · simp only [Bool.false_eq_true, if_false, Bool.not_false, if_true, add_zero]
        linear_combination ψ A B * (sq1 (K := K) (nOcc 0 N A) * (-1) ^ nAbove N B p * (-1) ^ nAbove N B p + sq1 (K := K) (nAbove N B p))
      · simp only [if_true, Bool.not_true, Bool.false_eq_true, if_false, zero_add]
        linear_combination ψ A B * (sq1 (K := K) (nOcc 0 N A) * (-1) ^ nAbove N B p * (-1) ^ nAbove N B p + sq1 (K := K) (nAbove N B p))
    · simp only [testBit_xor_pow B r p hrp, testBit_xor_pow B p r (Ne.symm hrp), sA N r p _ hr, sA N p r _ hp, xc, hrp, and_false,
        if_false]
      cases h1 : B.testBit p <;> cases h2 : B.testBit r <;> simp
      rcases Nat.lt_or_gt_of_ne hrp with h | h
      · rw [if_pos h, if_neg (show ¬ r < p by omega)]; ring
      · rw [if_pos (show r < p from h), if_neg (show ¬ p < r by omega)]; ring

/-! ### linearity -/

theorem ann_add (N : Nat) (s : Bool) (p : Nat) (ψ χ : Vec K) (A B : Nat) :
    ann N s p (fun A B => ψ A B + χ A B) A B = ann N s p ψ A B + ann N s p χ A B := by
  unfold ann
  cases s
  · simp only [Bool.false_eq_true, if_false]; split <;> ring
  · simp only [if_true]; split <;> ring

theorem ann_zero (N : Nat) (s : Bool) (p : Nat) : ann N s p (fun _ _ => (0 : K)) = fun _ _ => 0 := by
  funext A B; unfold ann; cases s <;> simp

theorem ann_sum {ι : Type} (N : Nat) (s : Bool) (p : Nat) (I : Finset ι) (ψ : ι → Vec K) (A B : Nat) :
    ann N s p (fun A B => ∑ i ∈ I, ψ i A B) A B = ∑ i ∈ I, ann N s p (ψ i) A B := by
  unfold ann
  cases s
  · simp only [Bool.false_eq_true, if_false]
    split
    · simp
    · rw [Finset.mul_sum]
  · simp only [if_true]
    split
    · simp
    · rw [Finset.mul_sum]

theorem cre_neg (N : Nat) (s : Bool) (p : Nat) (ψ : Vec K) (A B : Nat) :
    cre N s p (fun A B => -ψ A B) A B = -cre N s p ψ A B := by
  unfold cre
  cases s
  · simp only [Bool.false_eq_true, if_false]; split <;> ring
  · simp only [if_true]; split <;> ring

/-- `S-`: every orbital's electron moved from spin up to spin down. -/
def lowT (N : Nat) (ψ : Vec K) : Vec K := fun A B => ∑ i ∈ Finset.range N, cre N true i (ann N false i ψ) A B
/-- `S+` -/
def raiT (N : Nat) (ψ : Vec K) : Vec K := fun A B => ∑ i ∈ Finset.range N, cre N false i (ann N true i ψ) A B

theorem ann_cre_ann (N : Nat) (s u t : Bool) (p r : Nat) (hp : p < N) (hr : r < N) (ψ : Vec K) (A B : Nat) :
    ann N t r (cre N s p (ann N u p ψ)) A B = cre N s p (ann N u p (ann N t r ψ)) A B +
      if s = t ∧ p = r then ann N u p ψ A B else 0 := by
  have h := ann_cre N s t p r hp hr (ann N u p ψ) A B
  rw [ann_comm N u t p r hp hr ψ, cre_neg] at h
  linear_combination h

/-- `[S-, b] = -a`, `[S-, a] = 0`. -/
theorem ann_low (N : Nat) (t : Bool) (r : Nat) (hr : r < N) (ψ : Vec K) (A B : Nat) :
    ann N t r (lowT N ψ) A B = lowT N (ann N t r ψ) A B + if t then ann N false r ψ A B else 0 := by
  unfold lowT
  rw [ann_sum, Finset.sum_congr rfl (fun i hi => ann_cre_ann N true false t i r (Finset.mem_range.1 hi) hr ψ A B),
    Finset.sum_add_distrib]
  congr 1
  cases t
  · simp
  · simp only [true_and, if_true]
    rw [Finset.sum_ite_eq' (Finset.range N) r]
    simp [hr]

/-- `[S+, a] = -b`, `[S+, b] = 0`. -/
theorem ann_rai (N : Nat) (t : Bool) (r : Nat) (hr : r < N) (ψ : Vec K) (A B : Nat) :
    ann N t r (raiT N ψ) A B = raiT N (ann N t r ψ) A B + if t then 0 else ann N true r ψ A B := by
  unfold raiT
  rw [ann_sum, Finset.sum_congr rfl (fun i hi => ann_cre_ann N false true t i r (Finset.mem_range.1 hi) hr ψ A B),
    Finset.sum_add_distrib]
  congr 1
  cases t
  · simp only [true_and, Bool.false_eq_true, if_false]
    rw [Finset.sum_ite_eq' (Finset.range N) r]
    simp [hr]
  · simp

theorem ovl_sum_left {ι : Type} (N : Nat) (I : Finset ι) (φ : ι → Vec K) (ψ : Vec K) :
    ovl N (fun A B => ∑ i ∈ I, φ i A B) ψ = ∑ i ∈ I, ovl N (φ i) ψ := by
  unfold ovl
  rw [Finset.sum_comm' (t' := Finset.range (2 ^ N)) (s' := fun _ => I) (by simp [and_comm])]
  refine Finset.sum_congr rfl fun A _ => ?_
  rw [Finset.sum_comm' (t' := Finset.range (2 ^ N)) (s' := fun _ => I) (by simp [and_comm])]
  refine Finset.sum_congr rfl fun B _ => ?_
  rw [Finset.sum_mul]

/-- Creation is the adjoint of annihilation. -/
theorem ovl_cre (N : Nat) (s : Bool) (p : Nat) (hp : p < N) (φ ψ : Vec K) : ovl N (cre N s p φ) ψ = ovl N φ (ann N s p ψ) := by
  have bij : ∀ f : Nat → K, ∑ A ∈ Finset.range (2 ^ N), f A = ∑ A ∈ Finset.range (2 ^ N), f (A ^^^ 2 ^ p) := by
    intro f
    refine Finset.sum_bij' (fun A _ => A ^^^ 2 ^ p) (fun A _ => A ^^^ 2 ^ p) ?_ ?_ ?_ ?_ ?_
    · intro A hA; simpa [Verif.FciRdm.xor_lt hp] using hA
    · intro A hA; simpa [Verif.FciRdm.xor_lt hp] using hA
    · intro A _; exact xor_xor A p
    · intro A _; exact xor_xor A p
    · intro A _; rw [xor_xor]
  unfold ovl
  cases s
  · rw [bij]
    refine Finset.sum_congr rfl fun A _ => Finset.sum_congr rfl fun B _ => ?_
    simp only [cre, ann, Bool.false_eq_true, if_false, testBit_xor_same, xor_xor, sA N p p _ hp, lt_irrefl, mul_one]
    cases A.testBit p <;> simp
    ring
  · refine Finset.sum_congr rfl fun A _ => ?_
    rw [bij]
    refine Finset.sum_congr rfl fun B _ => ?_
    simp only [cre, ann, if_true, testBit_xor_same, xor_xor, pow_add, sA N p p _ hp, lt_irrefl, if_false, mul_one]
    cases B.testBit p <;> simp
    ring

theorem ovl_low (N : Nat) (φ ψ : Vec K) : ovl N (lowT N φ) ψ = ovl N φ (raiT N ψ) := by
  unfold lowT raiT
  rw [ovl_sum_left, ovl_comm N φ, ovl_sum_left]
  refine Finset.sum_congr rfl fun i hi => ?_
  have hi := Finset.mem_range.1 hi
  rw [ovl_cre N true i hi, ovl_comm, ovl_cre N false i hi, ovl_comm, ovl_comm]

end Verif.Ladder
