import Verif.Spec.CplxSolve
import Mathlib.Tactic.Ring
import Mathlib.Tactic.Linarith
import Mathlib.Tactic.LinearCombination
import Mathlib.Tactic.IntervalCases
import Mathlib.Analysis.Complex.Basic
/-!
# Properties of the solver for complex CI vectors
-/
namespace Verif.Props
open Verif.CplxSolve Verif.Spec.CplxSolve

/-- **C120.** The spin-squared operator acts on complex vectors as it does on real ones. -/
theorem C120_contract_ss {n : Nat} {M : Nat → Nat → ℝ} {ss : (Nat → ℝ) → Nat → ℝ} (h : Applies n M ss) (c : Nat → ℂ) {i : Nat} (hi : i < n) :
    contractSs0 ss c i = ∑ j ∈ Finset.range n, (M i j : ℂ) * c j := by
  apply Complex.ext
  · rw [Complex.re_sum]
    refine (h.val _ i hi).trans (Finset.sum_congr rfl fun j _ => ?_)
    simp
  · rw [Complex.im_sum]
    refine (h.val _ i hi).trans (Finset.sum_congr rfl fun j _ => ?_)
    simp

/-- **C120.** `spin_square` of a complex vector is the expectation value, which is real: no imaginary part is dropped. -/
theorem C120_spin_square {n : Nat} {M : Nat → Nat → ℝ} {ss : (Nat → ℝ) → Nat → ℝ} (h : Applies n M ss) (c : Nat → ℂ) :
    (((spinSquare0 n ss c).1.1 : ℝ) : ℂ) = expect n M c ∧ (spinSquare0 n ss c).2 = 0 := by
  have cross : ∀ a b : Nat → ℝ, s2 n ss a b = ∑ i ∈ Finset.range n, ∑ j ∈ Finset.range n, b i * M i j * a j := by
    intro a b
    unfold s2
    refine Finset.sum_congr rfl fun i hi => ?_
    rw [h.val _ i (Finset.mem_range.1 hi), Finset.mul_sum]
    exact Finset.sum_congr rfl fun j _ => by ring
  have sym : ∀ a b : Nat → ℝ, s2 n ss a b = s2 n ss b a := by
    intro a b
    rw [cross, cross, Finset.sum_comm]
    refine Finset.sum_congr rfl fun i hi => Finset.sum_congr rfl fun j hj => ?_
    rw [h.symm _ (Finset.mem_range.1 hj) _ (Finset.mem_range.1 hi)]
    ring
  have him : (spinSquare0 n ss c).2 = 0 := sub_eq_zero.2 (sym _ _)
  refine ⟨?_, him⟩
  have e : expect n M c = ∑ i ∈ Finset.range n, ∑ j ∈ Finset.range n, star (c i) * ((M i j : ℂ) * c j) := by
    unfold expect
    exact Finset.sum_congr rfl fun i _ => Finset.mul_sum ..
  apply Complex.ext
  · rw [e, Complex.re_sum, Complex.ofReal_re]
    show s2 n ss _ _ + s2 n ss _ _ = _
    rw [cross, cross, ← Finset.sum_add_distrib]
    refine Finset.sum_congr rfl fun i _ => ?_
    rw [Complex.re_sum, ← Finset.sum_add_distrib]
    refine Finset.sum_congr rfl fun j _ => ?_
    simp
    ring
  · rw [e, Complex.im_sum, Complex.ofReal_im]
    have h2 := him
    unfold spinSquare0 at h2
    dsimp only at h2
    rw [cross, cross, ← Finset.sum_sub_distrib] at h2
    rw [← neg_eq_zero.2 h2, ← Finset.sum_neg_distrib]
    refine Finset.sum_congr rfl fun i _ => ?_
    rw [Complex.im_sum, ← Finset.sum_sub_distrib, ← Finset.sum_neg_distrib]
    refine Finset.sum_congr rfl fun j _ => ?_
    simp
    ring

/-- **C120.** For a normalized vector of spin `m - 1` halves the multiplicity is `m`. -/
theorem C120_multiplicity {n : Nat} {M : Nat → Nat → ℝ} {ss : (Nat → ℝ) → Nat → ℝ} (h : Applies n M ss) (c : Nat → ℂ) {m : Nat} (hm : 0 < m)
    (hc : ∀ i < n, (∑ j ∈ Finset.range n, (M i j : ℂ) * c j) = (((m : ℝ) ^ 2 - 1) / 4 : ℝ) * c i) (hn : (∑ i ∈ Finset.range n, star (c i) * c i) = 1) :
    (spinSquare0 n ss c).1 = (((m : ℝ) ^ 2 - 1) / 4, (m : ℝ)) := by
  have e := (C120_spin_square h c).1
  have e2 : expect n M c = (((m : ℝ) ^ 2 - 1) / 4 : ℝ) := by
    unfold expect
    rw [Finset.sum_congr rfl fun i hi => by rw [hc i (Finset.mem_range.1 hi)]]
    rw [Finset.sum_congr rfl fun i _ => mul_left_comm (star (c i)) _ (c i), ← Finset.mul_sum, hn, mul_one]
  have e3 : (spinSquare0 n ss c).1.1 = ((m : ℝ) ^ 2 - 1) / 4 := Complex.ofReal_injective (e.trans e2)
  refine Prod.ext e3 ?_
  have e4 : (spinSquare0 n ss c).1.2 = 2 * (Real.sqrt ((spinSquare0 n ss c).1.1 + 1 / 4) - 1 / 2) + 1 := rfl
  rw [e4, e3]
  have : ((m : ℝ) ^ 2 - 1) / 4 + 1 / 4 = ((m : ℝ) / 2) ^ 2 := by ring
  rw [this, Real.sqrt_sq (by positivity)]
  show 2 * ((m : ℝ) / 2 - 1 / 2) + 1 = m
  ring

/-- The maximum is one of the numbers, and no number has a larger real part. -/
theorem npMax_spec : ∀ (l : List ℂ) (x : ℂ), (npMax x l = x ∨ npMax x l ∈ l) ∧ x.re ≤ (npMax x l).re ∧ ∀ y ∈ l, y.re ≤ (npMax x l).re
  | [], x => ⟨Or.inl rfl, le_rfl, fun y hy => nomatch hy⟩
  | z :: l, x => by
    classical
    have hstep : npMax x (z :: l) = npMax (if lexLt x z then z else x) l := by
      unfold npMax
      rw [List.foldl_cons]
    obtain ⟨h1, h2, h3⟩ := npMax_spec l (if lexLt x z then z else x)
    rw [hstep]
    by_cases hx : lexLt x z
    · rw [if_pos hx] at h1 h2 h3 ⊢
      have hxz : x.re ≤ z.re := hx.elim le_of_lt fun h => le_of_eq h.1
      refine ⟨Or.inr (List.mem_cons.2 h1), hxz.trans h2, fun y hy => ?_⟩
      rcases List.mem_cons.1 hy with rfl | hy
      · exact h2
      · exact h3 y hy
    · rw [if_neg hx] at h1 h2 h3 ⊢
      have hzx : z.re ≤ x.re := le_of_not_gt fun h => hx (Or.inl h)
      refine ⟨h1.elim Or.inl fun h => Or.inr (List.mem_cons_of_mem _ h), h2, fun y hy => ?_⟩
      rcases List.mem_cons.1 hy with rfl | hy
      · exact hzx.trans h2
      · exact h3 y hy

theorem mem_antiPart {n : Nat} {op : Nat → Nat → ℂ} {z : ℂ} : z ∈ antiPart n op ↔ ∃ i j, i < n ∧ j < n ∧ z = op i j - star (op j i) := by
  unfold antiPart
  simp only [List.mem_flatMap, List.mem_range, List.mem_map]
  exact ⟨fun ⟨i, hi, j, hj, h⟩ => ⟨i, j, hi, hj, h.symm⟩, fun ⟨i, j, hi, hj, h⟩ => ⟨i, hi, j, hj, h.symm⟩⟩

/-- What the check of the solver checks, for matrices that are not empty: the differences of the real parts. -/
theorem hermCheck_of {n : Nat} (hn : 0 < n) {op : Nat → Nat → ℂ} (h : ∀ i < n, ∀ j < n, (op i j).re - (op j i).re < 1 / 10 ^ 6) : hermCheck n op := by
  unfold hermCheck
  split
  · rename_i hl
    have : op 0 0 - star (op 0 0) ∈ antiPart n op := mem_antiPart.2 ⟨0, 0, hn, hn, rfl⟩
    rw [hl] at this
    nomatch this
  · rename_i x l hl
    left
    have hm : npMax x l ∈ antiPart n op := by
      rw [hl]
      exact List.mem_cons.2 (npMax_spec l x).1
    obtain ⟨i, j, hi, hj, e⟩ := mem_antiPart.1 hm
    rw [e]
    have := h i hi j hj
    simpa using this

/-- **C120**, partial. A Hermitian matrix is accepted and diagonalized as it is; of an accepted matrix the real parts are symmetric within the threshold. -/
theorem C120_eig_partial {n : Nat} (hn : 0 < n) (op : Nat → Nat → ℂ) :
    (Herm n op → ∃ m, eigArray n op = some m ∧ ∀ i < n, ∀ j < n, m i j = op i j) ∧
    ((eigArray n op).isSome → ∀ i < n, ∀ j < n, |(op i j).re - (op j i).re| ≤ 1 / 10 ^ 6) := by
  classical
  constructor
  · intro hh
    have hc : hermCheck n op := hermCheck_of hn fun i hi j hj => by
      have := congrArg Complex.re (hh i hi j hj)
      rw [this]
      simp
    refine ⟨eighSees op, if_pos hc, fun i hi j hj => ?_⟩
    unfold eighSees
    by_cases h1 : i = j
    · subst h1
      rw [if_pos rfl]
      have := congrArg Complex.im (hh i hi i hi)
      apply Complex.ext
      · exact Complex.ofReal_re _
      · rw [Complex.ofReal_im]
        simp at this
        linarith
    · rw [if_neg h1]
      by_cases h2 : j < i
      · rw [if_pos h2]
      · rw [if_neg h2]
        exact (hh i hi j hj).symm
  · intro hs i hi j hj
    have hc : hermCheck n op := by
      by_contra hc
      unfold eigArray at hs
      rw [if_neg hc] at hs
      exact absurd hs (by simp)
    have key : ∀ i < n, ∀ j < n, (op i j).re - (op j i).re ≤ 1 / 10 ^ 6 := by
      intro i hi j hj
      unfold hermCheck at hc
      have hm : op i j - star (op j i) ∈ antiPart n op := mem_antiPart.2 ⟨i, j, hi, hj, rfl⟩
      split at hc
      · exact hc.elim
      · rename_i x l hl
        rw [hl] at hm
        have h1 : (op i j - star (op j i)).re ≤ (npMax x l).re := by
          rcases List.mem_cons.1 hm with h | h
          · rw [h]; exact (npMax_spec l x).2.1
          · exact (npMax_spec l x).2.2 _ h
        have h2 : (npMax x l).re ≤ 1 / 10 ^ 6 := hc.elim (fun h => le_of_lt h) fun h => le_of_eq h.1
        have h3 := h1.trans h2
        simpa using h3
    rw [abs_le]
    exact ⟨by linarith [key j hj i hi], key i hi j hj⟩

/-- **C120**, violated. The check compares complex numbers by their real parts, so it accepts matrices that are as far from Hermitian as one likes, and
another matrix is diagonalized. -/
theorem C120_eig_violated (b : ℝ) (hb : b ≠ 0) :
    let op : Nat → Nat → ℂ := fun i j => if i = j then 0 else ⟨0, b⟩
    ¬Herm 2 op ∧ ∃ m, eigArray 2 op = some m ∧ m 0 1 - op 0 1 = ⟨0, -2 * b⟩ := by
  classical
  intro op
  refine ⟨fun h => ?_, eighSees op, if_pos (hermCheck_of (by omega) fun i hi j hj => ?_), ?_⟩
  · have := congrArg Complex.im (h 0 (by omega) 1 (by omega))
    simp [op] at this
    exact hb (by linarith)
  · have : ∀ i j, (op i j).re = 0 := by
      intro i j
      show (if i = j then (0 : ℂ) else ⟨0, b⟩).re = 0
      split <;> rfl
    rw [this, this]
    norm_num
  · have e1 : eighSees op 0 1 = star (⟨0, b⟩ : ℂ) := rfl
    have e2 : op 0 1 = ⟨0, b⟩ := rfl
    rw [e1, e2]
    apply Complex.ext
    · simp
    · simp
      ring

/-- **C120.** The preconditioner divides by the shifted diagonal wherever that is not too small, and never enlarges a component more than `10^8` times. -/
theorem C120_precond (hdiag : Nat → ℂ) (shift : ℝ) (dx : Nat → ℂ) (e : ℂ) (i : Nat) :
    (1 / 10 ^ 8 ≤ ‖hdiag i - ((e.re - shift : ℝ) : ℂ)‖ → diagPrecond hdiag shift dx e i * (hdiag i - ((e.re - shift : ℝ) : ℂ)) = dx i) ∧
    ‖diagPrecond hdiag shift dx e i‖ ≤ ‖dx i‖ * 10 ^ 8 := by
  classical
  constructor
  · intro h
    unfold diagPrecond
    dsimp only
    rw [if_neg (not_lt.2 h)]
    refine div_mul_cancel₀ _ fun h0 => ?_
    rw [h0, norm_zero] at h
    norm_num at h
  · unfold diagPrecond
    dsimp only
    rw [norm_div, div_eq_mul_inv]
    refine mul_le_mul_of_nonneg_left ?_ (norm_nonneg _)
    have h : (1 / 10 ^ 8 : ℝ) ≤ ‖(if ‖hdiag i - ((e.re - shift : ℝ) : ℂ)‖ < 1 / 10 ^ 8 then ((1 / 10 ^ 8 : ℝ) : ℂ) else hdiag i - ((e.re - shift : ℝ) : ℂ))‖ := by
      split
      · rw [Complex.norm_real, Real.norm_eq_abs]
        exact le_abs_self _
      · rename_i h
        exact not_lt.1 h
    refine (inv_le_of_inv_le₀ (by positivity) ?_)
    rw [← one_div]
    exact h

/-- **C120.** For one root the initial guess of the singlet solver is symmetric, and it is the given vector if that was symmetric. -/
theorem C120_guess {na : Nat} (c : Nat → ℂ) : ∃ g, initGuess0 1 na [c] = some g ∧
    (∀ a < na, ∀ b < na, g (a * na + b) = g (b * na + a)) ∧
    ((∀ a < na, ∀ b < na, c (a * na + b) = c (b * na + a)) → ∀ a < na, ∀ b < na, g (a * na + b) = c (a * na + b)) := by
  have key : ∀ a < na, ∀ b < na, (a * na + b) % na * na + (a * na + b) / na = b * na + a := by
    intro a ha b hb
    rw [Nat.mul_comm a na, Nat.mul_add_mod, Nat.mod_eq_of_lt hb, Nat.mul_add_div (by omega), Nat.div_eq_of_lt hb, Nat.add_zero]
  refine ⟨_, rfl, fun a ha b hb => ?_, fun hs a ha b hb => ?_⟩
  · rw [key a ha b hb, key b hb a ha]
    ring
  · rw [key a ha b hb, ← hs a ha b hb]
    ring

/-- **C120**, violated. For several roots the singlet solver never gives an initial guess, so that a calculation of several singlet states without one
from the caller fails. -/
theorem C120_guess_violated {nroots : Nat} (h : 1 < nroots) (na : Nat) (initCi : List (Nat → ℂ)) : initGuess0 nroots na initCi = none := if_pos h

/-- A triplet of two determinants, with a phase `i`. -/
example : (spinSquare0 2 (fun v i => ∑ j ∈ Finset.range 2, 1 * v j) (fun _ => ⟨0, Real.sqrt 2 / 2⟩)).1 =
    ((((3 : ℕ) : ℝ) ^ 2 - 1) / 4, ((3 : ℕ) : ℝ)) := by
  have hs : Real.sqrt 2 * Real.sqrt 2 = 2 := Real.mul_self_sqrt (by norm_num)
  refine C120_multiplicity (M := fun _ _ => 1) ⟨fun v i _ => rfl, fun _ _ _ _ => rfl⟩ _ (by omega) (fun i hi => ?_) ?_
  · simp only [Finset.sum_range_succ, Finset.sum_range_zero]
    have e : (((((3 : ℕ) : ℝ) ^ 2 - 1) / 4 : ℝ) : ℂ) = ((2 : ℝ) : ℂ) := by norm_num
    rw [e]
    apply Complex.ext
    · simp
    · simp
      ring
  · simp only [Finset.sum_range_succ, Finset.sum_range_zero]
    apply Complex.ext
    · simp
      nlinarith
    · simp

end Verif.Props
