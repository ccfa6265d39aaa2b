import Verif.Lemmas.RdmSeq2
/-!
# Lemmas: three-operator matrices with spin-down annihilation
-/
namespace Verif.RdmSmult
open Verif.Wigner

variable {S' S : ℕ}

theorem half_eq1 {S j : ℕ} : ((S : ℝ) / 2 - j = S / 2 - 1) ↔ j = 1 := by
  constructor
  · intro h
    have : (j : ℝ) = 1 := by linarith
    exact_mod_cast this
  · rintro rfl; simp

theorem phh_b {A B C D : ℕ → ℕ → ℝ} {dm0 : T3} {r p q : ℕ} (hD : Up0 S' S D) (hQ : Dn S' S D fun i j => A i j - B i j + C i j)
    (s1 : Up0 S' S fun i j => A i j + B i j) (s2 : Up0 S' S fun i j => B i j + C i j)
    (w1 : ∀ i j, i + 2 ≤ j → j ≤ S → A i j + B i j = 0) (w2 : ∀ i j, i + 2 ≤ j → j ≤ S → B i j + C i j = 0)
    (va : ∀ i j, i + 3 ≤ j → j ≤ S → A i j = 0) (vb : ∀ i j, i + 3 ≤ j → j ≤ S → B i j = 0)
    (ua : ∀ i j, j + 2 ≤ i → i ≤ S' → A i j = 0) (ub : ∀ i j, j + 2 ≤ i → i ≤ S' → B i j = 0) {i j i0 j0 : ℕ}
    (x : Ix S' S (-1) i j i0 j0) (e1 : dm0 1 r p q = A i0 j0) (e2 : dm0 0 r p q = B i0 j0) (e3 : dm0 0 q p r = C i0 j0) :
    mdownPhh dm0 (S' + 1) 1 (S + 1) (S - 2 * j) 1 r p q = A i j ∧ mdownPhh dm0 (S' + 1) 1 (S + 1) (S - 2 * j) 0 r p q = B i j := by
  have t1 := half_b s1 w1 x
  have t2 := half_b s2 w2 x
  have hD' := hD.swap
  have hQ' := hQ.swap
  obtain ⟨hi, hj, hij, h0, hz⟩ := x
  have hjr : (j : ℝ) ≤ S := by exact_mod_cast hj
  have hj0 : (0 : ℝ) ≤ j := Nat.cast_nonneg j
  have hir0 : (0 : ℝ) ≤ i := Nat.cast_nonneg i
  unfold mdownPhh
  simp only [one_ne_zero, and_false, if_false, and_true]
  rcases (by omega : S' + 5 ≤ S ∨ S' + 3 = S ∨ S' + 1 = S ∨ S' = S + 1 ∨ S' = S + 3 ∨ S + 5 ≤ S') with h | h | h | h | h | h
  · rw [if_neg (by omega), if_neg (by omega), scaleH_out (by omega), va i j (by omega) hj, vb i j (by omega) hj, mul_zero, mul_zero]
    exact ⟨rfl, rfl⟩
  · rw [if_neg (by omega), if_neg (by omega), e1, e2]
    obtain ⟨rfl, rfl, rfl⟩ : j = 2 + i ∧ i0 = 0 ∧ j0 = 2 := by omega
    have hSr : (S : ℝ) = S' + 3 := by exact_mod_cast h.symm
    have hir : (i : ℝ) ≤ S' := by exact_mod_cast hi
    have z1 := w1 i (2 + i) (by omega) hj
    have z2 := w2 i (2 + i) (by omega) hj
    have y1 := w1 0 2 (by omega) (by omega)
    have y2 := w2 0 2 (by omega) (by omega)
    have rr := r3_up3 hD' hQ' (by omega) (by omega) i (by omega)
    rw [scaleH_eq (k := 0) (by omega) (by norm_num) (by norm_num),
      tabH_0_1 (by push_cast; linarith) (by push_cast; linarith) (by push_cast; linarith) (by linarith),
      show (-((S : ℝ) / 2 - ((2 + i : ℕ) : ℝ)) + S / 2) * ((S : ℝ) / 2 - ((2 + i : ℕ) : ℝ) + S / 2) *
          (-((S : ℝ) / 2 - ((2 + i : ℕ) : ℝ)) + S / 2 - 1) / (4 * ((S : ℝ) / 2 - 1)) =
        ((i : ℝ) + 1) * ((i : ℝ) + 2) * (S' - (i : ℝ) + 1) / (2 * (S' + 1)) by rw [hSr]; push_cast; congr 1 <;> ring]
    generalize √(((i : ℝ) + 1) * ((i : ℝ) + 2) * (S' - (i : ℝ) + 1) / (2 * (S' + 1))) = u at rr ⊢
    constructor
    · linear_combination (1 / 3) * rr - 2 / 3 * z1 + 1 / 3 * z2 + 2 / 3 * u * y1 - 1 / 3 * u * y2
    · linear_combination -1 / 3 * rr - 1 / 3 * z1 - 1 / 3 * z2 + 1 / 3 * u * y1 + 1 / 3 * u * y2
  · rw [if_pos (by omega), rs (j := j), rm]
    obtain ⟨rfl, rfl, rfl⟩ : j = 1 + i ∧ i0 = 0 ∧ j0 = 1 := by omega
    have hSr : (S : ℝ) = S' + 1 := by exact_mod_cast h.symm
    have hsc : scaleH (S' + 1) 1 (S + 1) (S - 2 * (1 + i : ℕ)) = √(((i : ℝ) + 1) / 1) := by
      rw [scaleH_eq (k := 1) (by omega) (by norm_num) (by norm_num), tabH_1_1]
      congr 1; push_cast; ring
    unfold phh1 tr3
    simp only [half_eq1, one_mul, if_true, one_ne_zero, if_false]
    by_cases hc : i = 0
    · subst hc
      rw [if_pos rfl, if_pos rfl, e1, e2, hsc]; simp
    · have hS1 : (1 : ℝ) ≤ S' := by exact_mod_cast (by omega : 1 ≤ S')
      have rr := r3_up1 hD' hQ' (by omega) (by omega) i (by omega)
      rw [if_neg (by omega), if_neg (by omega), e1, e2, e3]
      rw [hsc] at t1 t2 ⊢
      generalize √(((i : ℝ) + 1) / 1) = u at rr t1 t2 ⊢
      have a : (S' : ℝ) ≠ 0 := by linarith
      rw [hSr, show 2 * (((S' : ℝ) + 1) / 2) - 1 = S' by ring]
      rw [show u * ((2 * (S' : ℝ) - 3 * i) / (2 * S')) * -(A 0 1 - B 0 1 + C 0 1) =
        u * (2 * (S' : ℝ) - 3 * i) * -(A 0 1 - B 0 1 + C 0 1) / (2 * S') by ring, eq_div_iff (by simpa using a)] at rr
      push_cast
      constructor
      · field_simp
        linear_combination 2 / 3 * rr + 4 / 3 * (2 * S') * t1 - 2 / 3 * (2 * S') * t2
      · field_simp
        linear_combination -(2 / 3) * rr + 2 / 3 * (2 * S') * t1 + 2 / 3 * (2 * S') * t2
  · rw [if_neg (by omega), if_pos (by omega), rs (j := j), rm]
    obtain ⟨rfl, rfl, rfl⟩ : i = j ∧ i0 = 0 ∧ j0 = 0 := by omega
    have hSr : (S' : ℝ) = S + 1 := by exact_mod_cast h
    have hsc : scaleH (S' + 1) 1 (S + 1) (S - 2 * i) = √((S' - (i : ℝ)) / S') := by
      rw [scaleH_eq (k := 2) (by omega) (by norm_num) (by norm_num), tabH_2_1 (by linarith), hSr]
      congr 2 <;> ring
    unfold phh3 tr3
    simp only [half_eq, one_mul, if_true, one_ne_zero, if_false]
    by_cases hc : i = 0
    · subst hc
      have : ((S' : ℝ) - 0) / S' = 1 := by rw [sub_zero]; exact div_self (by linarith)
      rw [if_pos rfl, if_pos rfl, e1, e2, hsc, Nat.cast_zero, this, Real.sqrt_one, mul_one, mul_one]; exact ⟨rfl, rfl⟩
    · have hS1 : (1 : ℝ) ≤ S := by exact_mod_cast (by omega : 1 ≤ S)
      have rr := r3_down1 hD' hQ' (by omega) (by omega) i (by omega)
      rw [if_neg hc, if_neg hc, e1, e2, e3]
      rw [hsc] at t1 t2 ⊢
      generalize √((S' - (i : ℝ)) / S') = u at rr t1 t2 ⊢
      rw [hSr] at rr
      have a : (S : ℝ) ≠ 0 := by linarith
      rw [show u * (((S : ℝ) + 1 - 1 - 3 * i) / (S + 1 - 1)) * -(A 0 0 - B 0 0 + C 0 0) =
        u * ((S : ℝ) - 3 * i) * -(A 0 0 - B 0 0 + C 0 0) / S by rw [show (S : ℝ) + 1 - 1 = S by ring]; ring, eq_div_iff a] at rr
      constructor
      · field_simp
        linear_combination 2 / 3 * rr + 4 / 3 * S * t1 - 2 / 3 * S * t2
      · field_simp
        linear_combination -(2 / 3) * rr + 2 / 3 * S * t1 + 2 / 3 * S * t2
  · rw [if_neg (by omega), if_neg (by omega), e1, e2]
    obtain ⟨rfl, rfl, rfl⟩ : i = j + 1 ∧ i0 = 1 ∧ j0 = 0 := by omega
    have hSr : (S' : ℝ) = S + 3 := by exact_mod_cast h
    have z1 := s1.van (j + 1) j (by omega) hi
    have z2 := s2.van (j + 1) j (by omega) hi
    have y1 := s1.van 1 0 (by omega) (by omega)
    have y2 := s2.van 1 0 (by omega) (by omega)
    have rr := r3_down3 hD' hQ' (by omega) j (by omega)
    rw [scaleH_eq (k := 3) (by omega) (by norm_num) (by norm_num), tabH_3_1 (by linarith) (by linarith),
      show (-((S : ℝ) / 2 - (j : ℝ)) + S / 2 + 1) * ((S : ℝ) / 2 - (j : ℝ) + S / 2 + 1) *
          ((S : ℝ) / 2 - (j : ℝ) + S / 2 + 2) / (2 * ((2 * ((S : ℝ) / 2) + 1) * ((S : ℝ) / 2 + 1))) =
        ((j : ℝ) + 1) * (S' - j - 1) * (S' - j - 2) / ((S' - 1) * (S' - 2)) by rw [hSr]; congr 1 <;> ring]
    generalize √(((j : ℝ) + 1) * (S' - j - 1) * (S' - j - 2) / ((S' - 1) * (S' - 2))) = u at rr ⊢
    constructor
    · linear_combination (1 / 3) * rr - 2 / 3 * z1 + 1 / 3 * z2 + 2 / 3 * u * y1 - 1 / 3 * u * y2
    · linear_combination -1 / 3 * rr - 1 / 3 * z1 - 1 / 3 * z2 + 1 / 3 * u * y1 + 1 / 3 * u * y2
  · rw [if_neg (by omega), if_neg (by omega), scaleH_out (by omega), ua i j (by omega) hi, ub i j (by omega) hi, mul_zero, mul_zero]
    exact ⟨rfl, rfl⟩

end Verif.RdmSmult
