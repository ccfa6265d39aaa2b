import Verif.Lemmas.Wigner
/-!
# Matrix elements between two spin multiplets: ranks 1/2, 1, 3/2 and 2
-/
namespace Verif.Wigner

theorem sqeq {x y : ℝ} (hx : 0 ≤ x) (hy : 0 ≤ y) (h : x ^ 2 = y ^ 2) : x = y := (sq_eq_sq₀ hx hy).1 h

theorem cancel {x y z : ℝ} (hx : 0 < x) (h : y * x = z * x) : y = z := mul_right_cancel₀ hx.ne' h

theorem c_nonneg (S j : ℕ) : 0 ≤ c S j := Real.sqrt_nonneg _

theorem c_sq2 {S j : ℕ} (h : j ≤ S) : c S j ^ 2 = ((j : ℝ) + 1) * ((S : ℝ) - j) := by rw [sq]; exact c_sq h

theorem ad_nonneg (d e : ℕ) {S j : ℕ} (h : j + e ≤ S) : 0 ≤ asc d (j : ℝ) * desc e S j :=
  mul_nonneg (asc_pos d (by positivity)).le (desc_nonneg e (by positivity) (by exact_mod_cast h))

/-- rank 1, spin lowered by 1 -/
theorem r1_down {S' S : ℕ} {D Q : ℕ → ℕ → ℝ} (h : Dn0 S' S D) (hQ : Up S' S D Q) (hS : S' + 2 = S) (j : ℕ) (hj : j + 2 ≤ S) :
    Q j (j + 1) = √(((j : ℝ) + 1) * (S - j - 1) / (S - 1)) * Q 0 1 := by
  have e1 := low1 h hQ j j
  have e2 := low1 h hQ 0 0
  have e3 := low (d := 0) (e := 2) h (by omega) j hj
  simp only [Nat.zero_add] at e3
  have hS' : (S' : ℝ) = S - 2 := by
    have : (S' : ℝ) + 2 = S := by exact_mod_cast hS
    linarith
  have hj' : (j : ℝ) + 2 ≤ S := by exact_mod_cast hj
  have h0 : (0 : ℝ) ≤ j := by positivity
  rw [c_sq (by omega), c_sq (by omega), e3, hS'] at e1
  rw [c_sq (by omega), c_sq (by omega), hS'] at e2
  have hc := c_pos (S := S) (j := j) (by omega)
  have hc0 := c_pos (S := S) (j := 0) (by omega)
  have hR : (0 : ℝ) ≤ ((j : ℝ) + 1) * (S - j - 1) / (S - 1) := by
    apply div_nonneg
    · repeat' apply mul_nonneg
      all_goals linarith
    · repeat' apply mul_nonneg
      all_goals linarith
  refine cancel (mul_pos hc hc0) ?_
  have key : √(((j : ℝ) + 1) * (S - j - 1) / (S - 1)) * c S j = √(asc 0 j * desc 2 S j) * ((j + 1) * c S 0) := by
    refine sqeq (by have := c_nonneg S j; positivity) (by have := c_nonneg S 0; positivity) ?_
    simp only [mul_pow, Real.sq_sqrt hR, Real.sq_sqrt (ad_nonneg 0 2 hj), c_sq2 (show j ≤ S by omega), c_sq2 (show 0 ≤ S by omega)]
    simp only [asc, desc, Nat.cast_zero, Nat.cast_one, Nat.cast_ofNat]
    have n0 : (S : ℝ) ≠ 0 := by linarith
    have n1 : (S : ℝ) - 1 ≠ 0 := by linarith
    
    field_simp
    ring
  simp only [Nat.cast_zero] at e2
  linear_combination c S 0 * e1 - √(((j : ℝ) + 1) * (S - j - 1) / (S - 1)) * c S j * e2 + 2 * D 0 0 * key

/-- rank 3/2, spin lowered by 3/2 -/
theorem r3_down3 {S' S : ℕ} {D Q : ℕ → ℕ → ℝ} (h : Dn0 S' S D) (hQ : Up S' S D Q) (hS : S' + 3 = S) (j : ℕ) (hj : j + 3 ≤ S) :
    Q j (j + 1) = √(((j : ℝ) + 1) * (S - j - 1) * (S - j - 2) / ((S - 1) * (S - 2))) * Q 0 1 := by
  have e1 := low1 h hQ j j
  have e2 := low1 h hQ 0 0
  have e3 := low (d := 0) (e := 3) h (by omega) j hj
  simp only [Nat.zero_add] at e3
  have hS' : (S' : ℝ) = S - 3 := by
    have : (S' : ℝ) + 3 = S := by exact_mod_cast hS
    linarith
  have hj' : (j : ℝ) + 3 ≤ S := by exact_mod_cast hj
  have h0 : (0 : ℝ) ≤ j := by positivity
  rw [c_sq (by omega), c_sq (by omega), e3, hS'] at e1
  rw [c_sq (by omega), c_sq (by omega), hS'] at e2
  have hc := c_pos (S := S) (j := j) (by omega)
  have hc0 := c_pos (S := S) (j := 0) (by omega)
  have hR : (0 : ℝ) ≤ ((j : ℝ) + 1) * (S - j - 1) * (S - j - 2) / ((S - 1) * (S - 2)) := by
    apply div_nonneg
    · repeat' apply mul_nonneg
      all_goals linarith
    · repeat' apply mul_nonneg
      all_goals linarith
  refine cancel (mul_pos hc hc0) ?_
  have key : √(((j : ℝ) + 1) * (S - j - 1) * (S - j - 2) / ((S - 1) * (S - 2))) * c S j = √(asc 0 j * desc 3 S j) * ((j + 1) * c S 0) := by
    refine sqeq (by have := c_nonneg S j; positivity) (by have := c_nonneg S 0; positivity) ?_
    simp only [mul_pow, Real.sq_sqrt hR, Real.sq_sqrt (ad_nonneg 0 3 hj), c_sq2 (show j ≤ S by omega), c_sq2 (show 0 ≤ S by omega)]
    simp only [asc, desc, Nat.cast_zero, Nat.cast_one, Nat.cast_ofNat]
    have n0 : (S : ℝ) ≠ 0 := by linarith
    have n1 : (S : ℝ) - 1 ≠ 0 := by linarith
    have n2 : (S : ℝ) - 2 ≠ 0 := by linarith
    field_simp
    ring
  simp only [Nat.cast_zero] at e2
  linear_combination c S 0 * e1 - √(((j : ℝ) + 1) * (S - j - 1) * (S - j - 2) / ((S - 1) * (S - 2))) * c S j * e2 + 3 * D 0 0 * key

/-- rank 1, same spin -/
theorem r1_same {S' S : ℕ} {D Q : ℕ → ℕ → ℝ} (h : Dn0 S' S D) (hQ : Up S' S D Q) (hS : S' + 1 = S + 1) (h1 : 1 ≤ S) (j : ℕ)
    (hj : j + 0 ≤ S) : Q (j) j = √((S : ℝ) / S) * ((S - 2 * (j : ℝ)) / S) * Q 0 0 := by
  have hS' : (S' : ℝ) = S + 1 - 1 := by
    have : (S' : ℝ) + 1 = S + 1 := by exact_mod_cast hS
    linarith
  have h1' : (1 : ℝ) ≤ S := by exact_mod_cast h1
  have e2 := hQ.zero 0
  cases j with
  | zero =>
    have : ((S : ℝ) / S : ℝ) = 1 := by
      try simp only [Nat.cast_zero]
      rw [div_eq_one_iff_eq (by positivity)]
      try ring
    rw [this]
    simp only [Nat.cast_zero, Real.sqrt_one, one_mul, Nat.add_zero]
    rw [show (((S - 2 * (0 : ℝ)) / S) : ℝ) = 1 by
      have n1 : (S : ℝ) ≠ 0 := by linarith
      field_simp
      try ring, one_mul]
  | succ j =>
    have hj2 : j + 1 ≤ S := by omega
    have e1 := low1 h hQ (1 + j) j
    have e3 := low (d := 1) (e := 1) h (by omega) j hj2
    rw [c_sq (by omega), c_sq (by omega), e3, hS'] at e1
    have hj' : (j : ℝ) + 1 ≤ S := by exact_mod_cast hj2
    have hj1 : (j : ℝ) + 1 ≤ S := by exact_mod_cast (show j + 1 ≤ S by omega)
    have h0 : (0 : ℝ) ≤ j := by positivity
    have hc := c_pos (S := S) (j := j) (by omega)
    have hR : (0 : ℝ) ≤ (S : ℝ) / S := by
      apply div_nonneg
      · repeat' apply mul_nonneg
        all_goals linarith
      · repeat' apply mul_nonneg
        all_goals linarith
    have key : √((S : ℝ) / S) * c S j * c S' 0 = √(asc 1 j * desc 1 S j) * (S) := by
      refine sqeq (by have := c_nonneg S j; have := c_nonneg S' 0; positivity)
        (mul_nonneg (Real.sqrt_nonneg _) (by linarith)) ?_
      simp only [mul_pow, Real.sq_sqrt hR, Real.sq_sqrt (ad_nonneg 1 1 hj2), c_sq2 (show j ≤ S by omega),
        c_sq2 (show 0 ≤ S' by omega), hS']
      simp only [asc, desc, Nat.cast_zero, Nat.cast_one, Nat.cast_ofNat]
      have n0 : (S : ℝ) ≠ 0 := by linarith
      have n3 : (S : ℝ) + 1 ≠ 0 := by linarith
      
      field_simp
      ring
    refine cancel hc ?_
    rw [show 1 + j = (j + 1) by omega] at e1
    push_cast at e1 ⊢
    have fin : (((S - 2 * ((j : ℝ) + 1)) / S)) * (S) = (((1 : ℝ) + j + 1) * (S + 1 - 1 - (1 + j)) - (j + 1) * (S - j)) := by
      have n0 : (S : ℝ) ≠ 0 := by linarith
      
      field_simp
      try ring
    rw [← e2]
    linear_combination e1 - D 1 0 * (((S - 2 * ((j : ℝ) + 1)) / S)) * key - D 1 0 * √(asc 1 j * desc 1 S j) * fin

/-- rank 1, spin raised by 1 -/
theorem r1_up {S' S : ℕ} {D Q : ℕ → ℕ → ℝ} (h : Dn0 S' S D) (hQ : Up S' S D Q) (hS : S' + 0 = S + 2) (h1 : 0 ≤ S) (j : ℕ)
    (hj : j + 0 ≤ S) : Q (1 + j) j = √(((j : ℝ) + 1) * (S - (j : ℝ) + 1) / (S + 1)) * 1 * Q 1 0 := by
  have hS' : (S' : ℝ) = S + 2 - 0 := by
    have : (S' : ℝ) + 0 = S + 2 := by exact_mod_cast hS
    linarith
  have h1' : (0 : ℝ) ≤ S := by exact_mod_cast h1
  have e2 := hQ.zero 1
  cases j with
  | zero =>
    have : ((((0 : ℕ) : ℝ) + 1) * (S - ((0 : ℕ) : ℝ) + 1) / (S + 1) : ℝ) = 1 := by
      try simp only [Nat.cast_zero]
      rw [div_eq_one_iff_eq (by positivity)]
      try ring
    rw [this]
    simp only [Nat.cast_zero, Real.sqrt_one, one_mul, Nat.add_zero]
  | succ j =>
    have hj2 : j + 0 ≤ S := by omega
    have e1 := low1 h hQ (2 + j) j
    have e3 := low (d := 2) (e := 0) h (by omega) j hj2
    rw [c_sq (by omega), c_sq (by omega), e3, hS'] at e1
    have hj' : (j : ℝ) + 0 ≤ S := by exact_mod_cast hj2
    have hj1 : (j : ℝ) + 1 ≤ S := by exact_mod_cast (show j + 1 ≤ S by omega)
    have h0 : (0 : ℝ) ≤ j := by positivity
    have hc := c_pos (S := S) (j := j) (by omega)
    have hR : (0 : ℝ) ≤ (((j : ℝ) + 1) + 1) * (S - ((j : ℝ) + 1) + 1) / (S + 1) := by
      apply div_nonneg
      · repeat' apply mul_nonneg
        all_goals linarith
      · repeat' apply mul_nonneg
        all_goals linarith
    have key : √((((j : ℝ) + 1) + 1) * (S - ((j : ℝ) + 1) + 1) / (S + 1)) * c S j * c S' 1 = √(asc 2 j * desc 0 S j) * (2 * ((S : ℝ) - j)) := by
      refine sqeq (by have := c_nonneg S j; have := c_nonneg S' 1; positivity)
        (mul_nonneg (Real.sqrt_nonneg _) (by linarith)) ?_
      simp only [mul_pow, Real.sq_sqrt hR, Real.sq_sqrt (ad_nonneg 2 0 hj2), c_sq2 (show j ≤ S by omega),
        c_sq2 (show 1 ≤ S' by omega), hS']
      simp only [asc, desc, Nat.cast_zero, Nat.cast_one, Nat.cast_ofNat]
      have n0 : (S : ℝ) ≠ 0 := by linarith
      have n3 : (S : ℝ) + 1 ≠ 0 := by linarith
      
      field_simp
      ring
    refine cancel hc ?_
    rw [show 2 + j = 1 + (j + 1) by omega] at e1
    push_cast at e1 ⊢
    have fin : (1) * (2 * ((S : ℝ) - j)) = (((2 : ℝ) + j + 1) * (S + 2 - 0 - (2 + j)) - (j + 1) * (S - j)) := by
      have n0 : (S : ℝ) ≠ 0 := by linarith
      
      field_simp
      try ring
    rw [← e2]
    linear_combination e1 - D 2 0 * (1) * key - D 2 0 * √(asc 2 j * desc 0 S j) * fin

/-- rank 3/2, spin lowered by 1/2 -/
theorem r3_down1 {S' S : ℕ} {D Q : ℕ → ℕ → ℝ} (h : Dn0 S' S D) (hQ : Up S' S D Q) (hS : S' + 2 = S + 1) (h1 : 2 ≤ S) (j : ℕ)
    (hj : j + 1 ≤ S) : Q (j) j = √((S - (j : ℝ)) / S) * ((S - 1 - 3 * (j : ℝ)) / (S - 1)) * Q 0 0 := by
  have hS' : (S' : ℝ) = S + 1 - 2 := by
    have : (S' : ℝ) + 2 = S + 1 := by exact_mod_cast hS
    linarith
  have h1' : (2 : ℝ) ≤ S := by exact_mod_cast h1
  have e2 := hQ.zero 0
  cases j with
  | zero =>
    have : ((S - ((0 : ℕ) : ℝ)) / S : ℝ) = 1 := by
      try simp only [Nat.cast_zero]
      rw [div_eq_one_iff_eq (by positivity)]
      try ring
    rw [this]
    simp only [Nat.cast_zero, Real.sqrt_one, one_mul, Nat.add_zero]
    rw [show (((S - 1 - 3 * (0 : ℝ)) / (S - 1)) : ℝ) = 1 by
      have n1 : (S : ℝ) - 1 ≠ 0 := by linarith
      field_simp
      try ring, one_mul]
  | succ j =>
    have hj2 : j + 2 ≤ S := by omega
    have e1 := low1 h hQ (1 + j) j
    have e3 := low (d := 1) (e := 2) h (by omega) j hj2
    rw [c_sq (by omega), c_sq (by omega), e3, hS'] at e1
    have hj' : (j : ℝ) + 2 ≤ S := by exact_mod_cast hj2
    have hj1 : (j : ℝ) + 1 ≤ S := by exact_mod_cast (show j + 1 ≤ S by omega)
    have h0 : (0 : ℝ) ≤ j := by positivity
    have hc := c_pos (S := S) (j := j) (by omega)
    have hR : (0 : ℝ) ≤ (S - ((j : ℝ) + 1)) / S := by
      apply div_nonneg
      · repeat' apply mul_nonneg
        all_goals linarith
      · repeat' apply mul_nonneg
        all_goals linarith
    have key : √((S - ((j : ℝ) + 1)) / S) * c S j * c S' 0 = √(asc 1 j * desc 2 S j) * (S - 1) := by
      refine sqeq (by have := c_nonneg S j; have := c_nonneg S' 0; positivity)
        (mul_nonneg (Real.sqrt_nonneg _) (by linarith)) ?_
      simp only [mul_pow, Real.sq_sqrt hR, Real.sq_sqrt (ad_nonneg 1 2 hj2), c_sq2 (show j ≤ S by omega),
        c_sq2 (show 0 ≤ S' by omega), hS']
      simp only [asc, desc, Nat.cast_zero, Nat.cast_one, Nat.cast_ofNat]
      have n0 : (S : ℝ) ≠ 0 := by linarith
      have n3 : (S : ℝ) + 1 ≠ 0 := by linarith
      have n1 : (S : ℝ) - 1 ≠ 0 := by linarith
      field_simp
      ring
    refine cancel hc ?_
    rw [show 1 + j = (j + 1) by omega] at e1
    push_cast at e1 ⊢
    have fin : (((S - 1 - 3 * ((j : ℝ) + 1)) / (S - 1))) * (S - 1) = (((1 : ℝ) + j + 1) * (S + 1 - 2 - (1 + j)) - (j + 1) * (S - j)) := by
      have n0 : (S : ℝ) ≠ 0 := by linarith
      have n1 : (S : ℝ) - 1 ≠ 0 := by linarith
      field_simp
      try ring
    rw [← e2]
    linear_combination e1 - D 1 0 * (((S - 1 - 3 * ((j : ℝ) + 1)) / (S - 1))) * key - D 1 0 * √(asc 1 j * desc 2 S j) * fin

/-- rank 3/2, spin raised by 1/2 -/
theorem r3_up1 {S' S : ℕ} {D Q : ℕ → ℕ → ℝ} (h : Dn0 S' S D) (hQ : Up S' S D Q) (hS : S' + 1 = S + 2) (h1 : 1 ≤ S) (j : ℕ)
    (hj : j + 0 ≤ S) : Q (1 + j) j = √(((j : ℝ) + 1) / 1) * ((2 * S - 3 * (j : ℝ)) / (2 * S)) * Q 1 0 := by
  have hS' : (S' : ℝ) = S + 2 - 1 := by
    have : (S' : ℝ) + 1 = S + 2 := by exact_mod_cast hS
    linarith
  have h1' : (1 : ℝ) ≤ S := by exact_mod_cast h1
  have e2 := hQ.zero 1
  cases j with
  | zero =>
    have : ((((0 : ℕ) : ℝ) + 1) / 1 : ℝ) = 1 := by
      try simp only [Nat.cast_zero]
      rw [div_eq_one_iff_eq (by positivity)]
      try ring
    rw [this]
    simp only [Nat.cast_zero, Real.sqrt_one, one_mul, Nat.add_zero]
    rw [show (((2 * S - 3 * (0 : ℝ)) / (2 * S)) : ℝ) = 1 by
      have n1 : (S : ℝ) ≠ 0 := by linarith
      field_simp
      try ring, one_mul]
  | succ j =>
    have hj2 : j + 1 ≤ S := by omega
    have e1 := low1 h hQ (2 + j) j
    have e3 := low (d := 2) (e := 1) h (by omega) j hj2
    rw [c_sq (by omega), c_sq (by omega), e3, hS'] at e1
    have hj' : (j : ℝ) + 1 ≤ S := by exact_mod_cast hj2
    have hj1 : (j : ℝ) + 1 ≤ S := by exact_mod_cast (show j + 1 ≤ S by omega)
    have h0 : (0 : ℝ) ≤ j := by positivity
    have hc := c_pos (S := S) (j := j) (by omega)
    have hR : (0 : ℝ) ≤ (((j : ℝ) + 1) + 1) / 1 := by
      apply div_nonneg
      · repeat' apply mul_nonneg
        all_goals linarith
      · repeat' apply mul_nonneg
        all_goals linarith
    have key : √((((j : ℝ) + 1) + 1) / 1) * c S j * c S' 1 = √(asc 2 j * desc 1 S j) * (2 * S) := by
      refine sqeq (by have := c_nonneg S j; have := c_nonneg S' 1; positivity)
        (mul_nonneg (Real.sqrt_nonneg _) (by linarith)) ?_
      simp only [mul_pow, Real.sq_sqrt hR, Real.sq_sqrt (ad_nonneg 2 1 hj2), c_sq2 (show j ≤ S by omega),
        c_sq2 (show 1 ≤ S' by omega), hS']
      simp only [asc, desc, Nat.cast_zero, Nat.cast_one, Nat.cast_ofNat]
      have n0 : (S : ℝ) ≠ 0 := by linarith
      have n3 : (S : ℝ) + 1 ≠ 0 := by linarith
      
      field_simp
      ring
    refine cancel hc ?_
    rw [show 2 + j = 1 + (j + 1) by omega] at e1
    push_cast at e1 ⊢
    have fin : (((2 * S - 3 * ((j : ℝ) + 1)) / (2 * S))) * (2 * S) = (((2 : ℝ) + j + 1) * (S + 2 - 1 - (2 + j)) - (j + 1) * (S - j)) := by
      have n0 : (S : ℝ) ≠ 0 := by linarith
      
      field_simp
      try ring
    rw [← e2]
    linear_combination e1 - D 2 0 * (((2 * S - 3 * ((j : ℝ) + 1)) / (2 * S))) * key - D 2 0 * √(asc 2 j * desc 1 S j) * fin

/-- rank 3/2, spin raised by 3/2 -/
theorem r3_up3 {S' S : ℕ} {D Q : ℕ → ℕ → ℝ} (h : Dn0 S' S D) (hQ : Up S' S D Q) (hS : S' + 0 = S + 3) (h1 : 0 ≤ S) (j : ℕ)
    (hj : j + 0 ≤ S) : Q (2 + j) j = √(((j : ℝ) + 1) * ((j : ℝ) + 2) * (S - (j : ℝ) + 1) / (2 * (S + 1))) * 1 * Q 2 0 := by
  have hS' : (S' : ℝ) = S + 3 - 0 := by
    have : (S' : ℝ) + 0 = S + 3 := by exact_mod_cast hS
    linarith
  have h1' : (0 : ℝ) ≤ S := by exact_mod_cast h1
  have e2 := hQ.zero 2
  cases j with
  | zero =>
    have : ((((0 : ℕ) : ℝ) + 1) * (((0 : ℕ) : ℝ) + 2) * (S - ((0 : ℕ) : ℝ) + 1) / (2 * (S + 1)) : ℝ) = 1 := by
      try simp only [Nat.cast_zero]
      rw [div_eq_one_iff_eq (by positivity)]
      try ring
    rw [this]
    simp only [Nat.cast_zero, Real.sqrt_one, one_mul, Nat.add_zero]
  | succ j =>
    have hj2 : j + 0 ≤ S := by omega
    have e1 := low1 h hQ (3 + j) j
    have e3 := low (d := 3) (e := 0) h (by omega) j hj2
    rw [c_sq (by omega), c_sq (by omega), e3, hS'] at e1
    have hj' : (j : ℝ) + 0 ≤ S := by exact_mod_cast hj2
    have hj1 : (j : ℝ) + 1 ≤ S := by exact_mod_cast (show j + 1 ≤ S by omega)
    have h0 : (0 : ℝ) ≤ j := by positivity
    have hc := c_pos (S := S) (j := j) (by omega)
    have hR : (0 : ℝ) ≤ (((j : ℝ) + 1) + 1) * (((j : ℝ) + 1) + 2) * (S - ((j : ℝ) + 1) + 1) / (2 * (S + 1)) := by
      apply div_nonneg
      · repeat' apply mul_nonneg
        all_goals linarith
      · repeat' apply mul_nonneg
        all_goals linarith
    have key : √((((j : ℝ) + 1) + 1) * (((j : ℝ) + 1) + 2) * (S - ((j : ℝ) + 1) + 1) / (2 * (S + 1))) * c S j * c S' 2 = √(asc 3 j * desc 0 S j) * (3 * ((S : ℝ) - j)) := by
      refine sqeq (by have := c_nonneg S j; have := c_nonneg S' 2; positivity)
        (mul_nonneg (Real.sqrt_nonneg _) (by linarith)) ?_
      simp only [mul_pow, Real.sq_sqrt hR, Real.sq_sqrt (ad_nonneg 3 0 hj2), c_sq2 (show j ≤ S by omega),
        c_sq2 (show 2 ≤ S' by omega), hS']
      simp only [asc, desc, Nat.cast_zero, Nat.cast_one, Nat.cast_ofNat]
      have n0 : (S : ℝ) ≠ 0 := by linarith
      have n3 : (S : ℝ) + 1 ≠ 0 := by linarith
      
      field_simp
      ring
    refine cancel hc ?_
    rw [show 3 + j = 2 + (j + 1) by omega] at e1
    push_cast at e1 ⊢
    have fin : (1) * (3 * ((S : ℝ) - j)) = (((3 : ℝ) + j + 1) * (S + 3 - 0 - (3 + j)) - (j + 1) * (S - j)) := by
      have n0 : (S : ℝ) ≠ 0 := by linarith
      
      field_simp
      try ring
    rw [← e2]
    linear_combination e1 - D 3 0 * (1) * key - D 3 0 * √(asc 3 j * desc 0 S j) * fin

theorem c_sq_pair {S i : ℕ} (h : i ≤ S) : c S i * c S i * (c S (i + 1) * c S (i + 1)) =
    ((i : ℝ) + 1) * ((S : ℝ) - i) * (((i : ℝ) + 2) * ((S : ℝ) - i - 1)) := by
  rcases Nat.lt_or_ge i S with hlt | hge
  · rw [c_sq h, c_sq hlt]; push_cast; ring
  · obtain rfl : i = S := by omega
    rw [c_self]; ring

/-- rank 2, spin lowered by 2 -/
theorem r2_down2 {S' S : ℕ} {D Q R : ℕ → ℕ → ℝ} (h : Dn0 S' S D) (hQ : Up S' S D Q) (hR : Up S' S Q R) (hS : S' + 4 = S) (j : ℕ)
    (hj : j + 4 ≤ S) :
    R j (j + 2) = √(((j : ℝ) + 2) * (j + 1) * (S - j - 2) * (S - j - 3) / (2 * ((S - 3) * (S - 2)))) * R 0 2 := by
  have e1 := low2 h hQ hR j j
  have e2 := low2 h hQ hR 0 0
  have e3 := low (d := 0) (e := 4) h (by omega) j hj
  simp only [Nat.zero_add] at e3
  have hS' : (S' : ℝ) = S - 4 := by
    have : (S' : ℝ) + 4 = S := by exact_mod_cast hS
    linarith
  have hj' : (j : ℝ) + 4 ≤ S := by exact_mod_cast hj
  have h0 : (0 : ℝ) ≤ j := by positivity
  have p1 := c_sq_pair (S := S') (i := j) (by omega)
  have p2 := c_sq_pair (S := S') (i := 0) (by omega)
  have q1 := c_sq (S := S') (j := j) (by omega)
  have q2 := c_sq (S := S') (j := 0) (by omega)
  have t1 := c_sq (S := S) (j := j) (by omega)
  have t2 := c_sq (S := S) (j := j + 1) (by omega)
  have t3 := c_sq (S := S) (j := 0) (by omega)
  have t4 := c_sq (S := S) (j := 1) (by omega)
  rw [hS'] at p1 p2 q1 q2
  push_cast at p1 p2 q1 q2 t1 t2 t3 t4
  have b1 : R j (j + 2) * c S (j + 1) * c S j = 12 * (j + 1) * (j + 2) * D j j := by
    rw [e1]
    linear_combination (D j j) * (p1 - c S (j + 1) * c S (j + 1) * q1 * 2 - 2 * ((j + 1) * (S - 4 - j)) * t2 +
      c S (j + 1) * c S (j + 1) * t1 + ((j + 1) * (S - j)) * t2)
  have b2 : R 0 2 * c S 1 * c S 0 = 24 * D 0 0 := by
    simp only [Nat.zero_add] at e2 p2
    rw [e2]
    linear_combination (D 0 0) * (p2 - c S 1 * c S 1 * q2 * 2 - 2 * ((S : ℝ) - 4) * t4 + c S 1 * c S 1 * t3 + (S : ℝ) * t4)
  rw [e3] at b1
  have hc := c_pos (S := S) (j := j) (by omega)
  have hc1 := c_pos (S := S) (j := j + 1) (by omega)
  have hd := c_pos (S := S) (j := 0) (by omega)
  have hd1 := c_pos (S := S) (j := 1) (by omega)
  have hR : (0 : ℝ) ≤ ((j : ℝ) + 2) * (j + 1) * (S - j - 2) * (S - j - 3) / (2 * ((S - 3) * (S - 2))) := by
    apply div_nonneg
    · repeat' apply mul_nonneg
      all_goals linarith
    · repeat' apply mul_nonneg
      all_goals linarith
  have key : √(((j : ℝ) + 2) * (j + 1) * (S - j - 2) * (S - j - 3) / (2 * ((S - 3) * (S - 2)))) * c S (j + 1) * c S j * 2 =
      √(asc 0 j * desc 4 S j) * ((j + 1) * (j + 2)) * c S 1 * c S 0 := by
    refine sqeq (by positivity) (by positivity) ?_
    simp only [mul_pow, Real.sq_sqrt hR, Real.sq_sqrt (ad_nonneg 0 4 hj), c_sq2 (show j ≤ S by omega), c_sq2 (show 0 ≤ S by omega),
      c_sq2 (show j + 1 ≤ S by omega), c_sq2 (show 1 ≤ S by omega)]
    simp only [asc, desc, Nat.cast_zero, Nat.cast_one, Nat.cast_ofNat]
    have n0 : (S : ℝ) ≠ 0 := by linarith
    have n1 : (S : ℝ) - 1 ≠ 0 := by linarith
    have n2 : (S : ℝ) - 2 ≠ 0 := by linarith
    have n3 : (S : ℝ) - 3 ≠ 0 := by linarith
    push_cast
    field_simp
    ring
  refine cancel (mul_pos (mul_pos hc hc1) (mul_pos hd hd1)) ?_
  linear_combination c S 1 * c S 0 * b1 - √(((j : ℝ) + 2) * (j + 1) * (S - j - 2) * (S - j - 3) / (2 * ((S - 3) * (S - 2)))) *
    c S j * c S (j + 1) * b2 - 12 * D 0 0 * key

/-- rank 2, spin lowered by 1 -/
theorem r2_down1 {S' S : ℕ} {D Q R : ℕ → ℕ → ℝ} (h : Dn0 S' S D) (hQ : Up S' S D Q) (hR : Up S' S Q R) (hS : S' + 2 = S)
    (h3 : 3 ≤ S) (j : ℕ) (hj : j + 2 ≤ S) :
    R j (j + 1) = √(((j : ℝ) + 1) * (S - j - 1) / (S - 1)) * ((S - 2 * j - 2) / (S - 2)) * R 0 1 := by
  have hS' : (S' : ℝ) = S - 2 := by
    have : (S' : ℝ) + 2 = S := by exact_mod_cast hS
    linarith
  have h3' : (3 : ℝ) ≤ S := by exact_mod_cast h3
  have n0 : (S : ℝ) ≠ 0 := by linarith
  have n1 : (S : ℝ) - 1 ≠ 0 := by linarith
  have n2 : (S : ℝ) - 2 ≠ 0 := by linarith
  cases j with
  | zero =>
    have : ((((0 : ℕ) : ℝ) + 1) * (S - ((0 : ℕ) : ℝ) - 1) / (S - 1) : ℝ) = 1 := by
      rw [div_eq_one_iff_eq n1]; push_cast; ring
    rw [this]
    simp only [Nat.cast_zero, Real.sqrt_one, one_mul, mul_zero, sub_zero, div_self n2]
  | succ k =>
    have hk' : (k : ℝ) + 3 ≤ S := by exact_mod_cast (show k + 3 ≤ S by omega)
    have h0 : (0 : ℝ) ≤ k := by positivity
    have e1 := low2 h hQ hR (1 + k) k
    have e3 := low (d := 1) (e := 3) h (by omega) k (by omega)
    have p1 := c_sq_pair (S := S') (i := 1 + k) (by omega)
    have q1 := c_sq (S := S') (j := 1 + k) (by omega)
    have t1 := c_sq (S := S) (j := k) (by omega)
    have t2 := c_sq (S := S) (j := k + 1) (by omega)
    have t3 := c_sq (S := S) (j := 0) (by omega)
    have t4 := c_sq (S := S') (j := 1) (by omega)
    rw [hS'] at p1 q1 t4
    push_cast at p1 q1 t1 t2 t3 t4
    have b1 : R (1 + k) (k + 2) * c S (k + 1) * c S k = -6 * (k + 2) * (S - 2 * k - 4) * D (1 + k) k := by
      rw [e1]
      linear_combination (D (1 + k) k) * (p1 - c S (k + 1) * c S (k + 1) * q1 * 2 - 2 * ((k + 2) * (S - 3 - k)) * t2 +
        c S (k + 1) * c S (k + 1) * t1 + ((k + 1) * (S - k)) * t2)
    have b2 : R 0 1 * c S 0 = -6 * c S' 0 * D 1 0 := by
      have f1 := hR.succ 0 0
      have f2 := low1 h hQ 1 0
      have f3 := hQ.zero 0
      simp only [Nat.zero_add] at f1 f2 f3
      rw [← f3] at f1
      linear_combination (-c S 0) * f1 + c S' 0 * f2 + c S' 0 * D 1 0 * t4 - 2 * c S' 0 * D 1 0 * t3
    rw [e3] at b1
    have hc := c_pos (S := S) (j := k) (by omega)
    have hc1 := c_pos (S := S) (j := k + 1) (by omega)
    have hd := c_pos (S := S) (j := 0) (by omega)
    have hd1 := c_nonneg S' 0
    have hRR : (0 : ℝ) ≤ (((k : ℝ) + 1) + 1) * (S - (k + 1) - 1) / (S - 1) := by
      apply div_nonneg
      · repeat' apply mul_nonneg
        all_goals linarith
      · linarith
    have key : √((((k : ℝ) + 1) + 1) * (S - (k + 1) - 1) / (S - 1)) * c S (k + 1) * c S k * c S' 0 =
        √(asc 1 k * desc 3 S k) * (k + 2) * (S - 2) * c S 0 := by
      refine sqeq (by positivity) (mul_nonneg (mul_nonneg (by positivity) (by linarith)) (by positivity)) ?_
      simp only [mul_pow, Real.sq_sqrt hRR, Real.sq_sqrt (ad_nonneg 1 3 (show k + 3 ≤ S by omega)), c_sq2 (show k ≤ S by omega),
        c_sq2 (show 0 ≤ S by omega), c_sq2 (show k + 1 ≤ S by omega), c_sq2 (show 0 ≤ S' by omega), hS']
      simp only [asc, desc, Nat.cast_zero, Nat.cast_one, Nat.cast_ofNat]
      push_cast
      field_simp
      ring
    refine cancel (mul_pos (mul_pos hc hc1) hd) ?_
    have fin : (S - 2 * ((k : ℝ) + 1) - 2) / (S - 2) * (S - 2) = S - 2 * k - 4 := by field_simp; ring
    rw [show 1 + k = k + 1 by omega] at b1
    push_cast
    linear_combination c S 0 * b1 - √((((k : ℝ) + 1) + 1) * (S - (k + 1) - 1) / (S - 1)) * ((S - 2 * ((k : ℝ) + 1) - 2) / (S - 2)) *
      c S k * c S (k + 1) * b2 + 6 * D 1 0 * ((S - 2 * ((k : ℝ) + 1) - 2) / (S - 2)) * key +
      6 * D 1 0 * √(asc 1 k * desc 3 S k) * (k + 2) * c S 0 * fin

/-- rank 2, same spin -/
theorem r2_same {S : ℕ} {D Q R : ℕ → ℕ → ℝ} (h : Dn0 S S D) (hQ : Up S S D Q) (hR : Up S S Q R) (h2 : 2 ≤ S) (j : ℕ) (hj : j ≤ S) :
    R j j = (3 * (S - 2 * (j : ℝ)) ^ 2 - S * (S + 2)) / (2 * S * (S - 1)) * R 0 0 := by
  have h2' : (2 : ℝ) ≤ S := by exact_mod_cast h2
  have n0 : (S : ℝ) ≠ 0 := by linarith
  have n1 : (S : ℝ) - 1 ≠ 0 := by linarith
  have z0 := hR.zero 0
  have z1 := hQ.zero 1
  simp only [Nat.zero_add] at z0
  rw [← z1] at z0
  match j, hj with
  | 0, _ =>
    rw [show (3 * (S - 2 * ((0 : ℕ) : ℝ)) ^ 2 - S * (S + 2)) / (2 * S * (S - 1)) = (1 : ℝ) by
      rw [div_eq_one_iff_eq (by simp [n0, n1])]; push_cast; ring, one_mul]
  | 1, _ =>
    have t3 := c_sq (S := S) (j := 0) (by omega)
    have t4 := c_sq (S := S) (j := 2) h2
    have f1 := hR.succ 1 0
    have f2 := low1 h hQ 2 0
    simp only [Nat.zero_add] at f1 f2
    rw [show 1 + 1 = 2 from rfl] at f1 z1 z0
    rw [← z1] at f1
    push_cast at t3 t4
    have hd := c_pos (S := S) (j := 0) (by omega)
    refine cancel hd ?_
    rw [← z0]
    have fin : (3 * (S - 2 * ((1 : ℕ) : ℝ)) ^ 2 - S * (S + 2)) / (2 * S * (S - 1)) * S = S - 6 := by push_cast; field_simp; ring
    linear_combination (-c S 0) * f1 + c S 1 * f2 + c S 1 * D 2 0 * t4 - 2 * c S 1 * D 2 0 * t3 - c S 1 * D 2 0 * fin -
      (3 * (S - 2 * ((1 : ℕ) : ℝ)) ^ 2 - S * (S + 2)) / (2 * S * (S - 1)) * c S 1 * D 2 0 * t3
  | k + 2, hj =>
    have hk' : (k : ℝ) + 2 ≤ S := by exact_mod_cast hj
    have h0 : (0 : ℝ) ≤ k := by positivity
    have e1 := low2 h hQ hR (2 + k) k
    have e3 := low (d := 2) (e := 2) h (by omega) k (by omega)
    have p1 := c_sq_pair (S := S) (i := 2 + k) (by omega)
    have q1 := c_sq (S := S) (j := 2 + k) (by omega)
    have t1 := c_sq (S := S) (j := k) (by omega)
    have t2 := c_sq (S := S) (j := k + 1) (by omega)
    push_cast at p1 q1 t1 t2
    have b1 : R (2 + k) (k + 2) * c S (k + 1) * c S k = (3 * (S - 2 * ((k : ℝ) + 2)) ^ 2 - S * (S + 2)) * D (2 + k) k := by
      rw [e1]
      linear_combination (D (2 + k) k) * (p1 - c S (k + 1) * c S (k + 1) * q1 * 2 - 2 * ((k + 3) * (S - 2 - k)) * t2 +
        c S (k + 1) * c S (k + 1) * t1 + ((k + 1) * (S - k)) * t2)
    rw [e3, show 2 + k = k + 2 by omega] at b1
    have hc := c_pos (S := S) (j := k) (by omega)
    have hc1 := c_pos (S := S) (j := k + 1) (by omega)
    have hd := c_pos (S := S) (j := 0) (by omega)
    have hd1 := c_pos (S := S) (j := 1) (by omega)
    have key : c S (k + 1) * c S k * (c S 0 * c S 1) = √(asc 2 k * desc 2 S k) * (2 * S * (S - 1)) := by
      refine sqeq (by positivity) (mul_nonneg (by positivity) (mul_nonneg (by positivity) (by linarith))) ?_
      simp only [mul_pow, Real.sq_sqrt (ad_nonneg 2 2 (show k + 2 ≤ S by omega)), c_sq2 (show k ≤ S by omega),
        c_sq2 (show 0 ≤ S by omega), c_sq2 (show k + 1 ≤ S by omega), c_sq2 (show 1 ≤ S by omega)]
      simp only [asc, desc, Nat.cast_zero, Nat.cast_one, Nat.cast_ofNat]
      push_cast
      field_simp
      ring
    refine cancel (mul_pos hc hc1) ?_
    rw [← z0]
    push_cast
    have fin : (3 * (S - 2 * ((k : ℝ) + 2)) ^ 2 - S * (S + 2)) / (2 * S * (S - 1)) * (2 * S * (S - 1)) =
        3 * (S - 2 * ((k : ℝ) + 2)) ^ 2 - S * (S + 2) := by field_simp
    linear_combination b1 - (3 * (S - 2 * ((k : ℝ) + 2)) ^ 2 - S * (S + 2)) / (2 * S * (S - 1)) * D 2 0 * key -
      √(asc 2 k * desc 2 S k) * D 2 0 * fin

end Verif.Wigner
