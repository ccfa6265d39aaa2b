import Verif.Lemmas.RdmSeq
/-!
# Lemmas: transformations of density matrices with spin components that mix
-/
namespace Verif.RdmSmult
open Verif.Wigner

variable {S' S : ℕ}

theorem scal_van {F : ℕ → ℕ → ℝ} (hD : Dn0 S' S F) (hU : Up0 S' S F) {i j : ℕ} (hi : i ≤ S') (hj : j ≤ S) (h : i ≠ j) : F i j = 0 := by
  rcases Nat.lt_or_gt_of_ne h with h | h
  · exact hD.van i j h hj
  · exact hU.van i j h hi

theorem scal_same {F : ℕ → ℕ → ℝ} (hD : Dn0 S S F) {j : ℕ} (hj : j ≤ S) : F j j = F 0 0 := by
  have e := low hD (d := 0) (e := 0) (by omega) j (by omega)
  rw [zero_add] at e
  rw [e]; simp [asc, desc]

theorem half_eq {S j : ℕ} : ((S : ℝ) / 2 - j = S / 2) ↔ j = 0 := by
  constructor
  · intro h
    have : (j : ℝ) = 0 := by linarith
    exact_mod_cast this
  · rintro rfl; simp

theorem half_neg {S j : ℕ} : ((S : ℝ) / 2 - j = -(S / 2)) ↔ j = S := by
  constructor
  · intro h
    have : (j : ℝ) = S := by linarith
    exact_mod_cast this
  · rintro rfl; ring

theorem one_ba {H T D : ℕ → ℕ → ℝ} {dm0 : ℕ → ℕ → ℝ} {p q : ℕ} (hD : Dn0 S' S D) (hQ : Up S' S D fun i j => T i j - H i j)
    (s1 : Dn0 S' S fun i j => H i j + T i j) (s2 : Up0 S' S fun i j => H i j + T i j)
    (v1 : ∀ i j, j + 2 ≤ i → i ≤ S' → H i j = 0) (v2 : ∀ i j, i + 2 ≤ j → j ≤ S → H i j = 0) {i j i0 j0 : ℕ}
    (x : Ix S' S 0 i j i0 j0) (e1 : dm0 p q = H i0 j0) (e2 : dm0 q p = T i0 j0) :
    mdownHh dm0 (S' + 1) 1 (S + 1) (S - 2 * j) p q = H i j := by
  obtain ⟨hi, hj, hij, h0, hz⟩ := x
  have hjr : (j : ℝ) ≤ S := by exact_mod_cast hj
  have hj0 : (0 : ℝ) ≤ j := Nat.cast_nonneg j
  unfold mdownHh
  rcases (by omega : S' + 4 ≤ S ∨ S' + 2 = S ∨ S' = S ∨ S' = S + 2 ∨ S + 4 ≤ S') with h | h | h | h | h
  · rw [if_neg (by omega), scaleHh_out (by omega), v2 i j (by omega) hj, mul_zero]
  · rw [if_neg (by omega)]
    obtain ⟨rfl, rfl, rfl⟩ : j = i + 1 ∧ i0 = 0 ∧ j0 = 1 := by omega
    have hSr : (2 : ℝ) ≤ S := by exact_mod_cast (by omega : 2 ≤ S)
    rw [scaleHh_eq (k := 0) (by omega) (by norm_num) (by norm_num), tabHh_0_1 (by linarith) (by linarith) (by linarith), e1]
    have r := r1_down hD hQ h i (by omega)
    have z1 : H i (i + 1) + T i (i + 1) = 0 := scal_van s1 s2 hi hj (by omega)
    have z2 : H 0 1 + T 0 1 = 0 := scal_van s1 s2 (i := 0) (j := 1) (by omega) (by omega) (by omega)
    rw [show (-((S : ℝ) / 2 - ((i + 1 : ℕ) : ℝ)) + S / 2) * ((S : ℝ) / 2 - ((i + 1 : ℕ) : ℝ) + S / 2) / (2 * ((S : ℝ) / 2) - 1) =
      ((i : ℝ) + 1) * (S - i - 1) / (S - 1) by push_cast; rw [show 2 * ((S : ℝ) / 2) = S by ring]; congr 1; ring]
    linear_combination (1 / 2) * r + 1 / 2 * z2 * √(((i : ℝ) + 1) * (S - i - 1) / (S - 1)) - 1 / 2 * z1
  · subst h
    obtain ⟨rfl, rfl, rfl⟩ : i = j ∧ i0 = 0 ∧ j0 = 0 := by omega
    rw [if_pos (by omega), scaleHh_eq (k := 1) (by omega) (by norm_num) (by norm_num), tabHh_1_1, rs (j := i), rm]
    unfold hh0
    simp only [half_eq, mul_one]
    by_cases hc : i = 0
    · rw [if_pos hc, one_mul, e1, hc]
    · rw [if_neg hc, e1, e2]
      have hSr : (1 : ℝ) ≤ S' := by exact_mod_cast (by omega : 1 ≤ S')
      have r := r1_same hD hQ (by omega) (by omega) i (by omega)
      have z := scal_same s1 hj
      rw [div_self (by linarith), Real.sqrt_one] at r
      have a : (S' : ℝ) ≠ 0 := by linarith
      field_simp
      field_simp at r
      linear_combination 1 * r - 1 * S' * z
  · rw [if_neg (by omega)]
    obtain ⟨rfl, rfl, rfl⟩ : i = 1 + j ∧ i0 = 1 ∧ j0 = 0 := by omega
    rw [scaleHh_eq (k := 2) (by omega) (by norm_num) (by norm_num), tabHh_2_1 (by linarith) (by linarith), e1]
    have r := r1_up hD hQ (by omega) (by omega) j (by omega)
    have z1 : H (1 + j) j + T (1 + j) j = 0 := scal_van s1 s2 hi hj (by omega)
    have z2 : H 1 0 + T 1 0 = 0 := scal_van s1 s2 (i := 1) (j := 0) (by omega) (by omega) (by omega)
    rw [show (-((S : ℝ) / 2 - (j : ℝ)) + S / 2 + 1) * ((S : ℝ) / 2 - (j : ℝ) + S / 2 + 1) / (2 * ((S : ℝ) / 2) + 1) =
      ((j : ℝ) + 1) * (S - j + 1) / (S + 1) by rw [show 2 * ((S : ℝ) / 2) = S by ring]; congr 1; ring]
    linear_combination (1 / 2) * r + 1 / 2 * z2 * √(((j : ℝ) + 1) * (S - j + 1) / (S + 1)) - 1 / 2 * z1
  · rw [if_neg (by omega), scaleHh_out (by omega), v1 i j (by omega) hi, mul_zero]

theorem one_dm {Ga Gb D : ℕ → ℕ → ℝ} {dm0 : T2} {p q : ℕ} (hD : Dn0 S' S D) (hQ : Up S' S D fun i j => Ga i j - Gb i j)
    (s1 : Dn0 S' S fun i j => Ga i j + Gb i j) (s2 : Up0 S' S fun i j => Ga i j + Gb i j)
    (va : ∀ i j, i + 2 ≤ j → j ≤ S → Ga i j = 0) (vb : ∀ i j, i + 2 ≤ j → j ≤ S → Gb i j = 0) {i j i0 j0 : ℕ}
    (x : Ix S' S 0 i j i0 j0) (hle : S' ≤ S) (e1 : dm0 0 p q = Ga i0 j0) (e2 : dm0 1 p q = Gb i0 j0) :
    mdownDm1 dm0 (S' + 1) (S + 1) (S - 2 * j) 0 p q = Ga i j ∧ mdownDm1 dm0 (S' + 1) (S + 1) (S - 2 * j) 1 p q = Gb i j := by
  obtain ⟨hi, hj, hij, h0, hz⟩ := x
  have hjr : (j : ℝ) ≤ S := by exact_mod_cast hj
  have hj0 : (0 : ℝ) ≤ j := Nat.cast_nonneg j
  have hm : max ((S' : ℤ) + 1) (S + 1) = S + 1 := by omega
  have habs : |((S' : ℤ) + 1) - (S + 1)| = S - S' := by rw [abs_of_nonpos (by omega)]; omega
  unfold mdownDm1
  rw [habs]
  rcases (by omega : S' + 6 ≤ S ∨ S' + 4 = S ∨ S' + 2 = S ∨ S' = S) with h | h | h | h
  · rw [if_neg (by omega), scaleDm_out (by omega), va i j (by omega) hj, vb i j (by omega) hj, mul_zero, mul_zero]; exact ⟨rfl, rfl⟩
  · rw [if_neg (by omega), e1, e2, va i0 j0 (by omega) (by omega), vb i0 j0 (by omega) (by omega), va i j (by omega) hj,
      vb i j (by omega) hj, zero_mul]; exact ⟨rfl, rfl⟩
  · rw [if_neg (by omega)]
    obtain ⟨rfl, rfl, rfl⟩ : j = i + 1 ∧ i0 = 0 ∧ j0 = 1 := by omega
    have hSr : (2 : ℝ) ≤ S := by exact_mod_cast (by omega : 2 ≤ S)
    rw [scaleDm_eq (k := 1) (by omega) (by norm_num) (by norm_num), tabDm_1 (by linarith) (by linarith) (by linarith), e1, e2]
    have r := r1_down hD hQ h i (by omega)
    have z1 : Ga i (i + 1) + Gb i (i + 1) = 0 := scal_van s1 s2 hi hj (by omega)
    have z2 : Ga 0 1 + Gb 0 1 = 0 := scal_van s1 s2 (i := 0) (j := 1) (by omega) (by omega) (by omega)
    rw [show (-((S : ℝ) / 2 - ((i + 1 : ℕ) : ℝ)) + S / 2) * ((S : ℝ) / 2 - ((i + 1 : ℕ) : ℝ) + S / 2) / (2 * ((S : ℝ) / 2) - 1) =
      ((i : ℝ) + 1) * (S - i - 1) / (S - 1) by push_cast; rw [show 2 * ((S : ℝ) / 2) = S by ring]; congr 1; ring]
    constructor
    · linear_combination (-1 / 2) * r + 1 / 2 * z2 * √(((i : ℝ) + 1) * (S - i - 1) / (S - 1)) - 1 / 2 * z1
    · linear_combination (1 / 2) * r + 1 / 2 * z2 * √(((i : ℝ) + 1) * (S - i - 1) / (S - 1)) - 1 / 2 * z1
  · subst h
    obtain ⟨rfl, rfl, rfl⟩ : i = j ∧ i0 = 0 ∧ j0 = 0 := by omega
    rw [if_pos (by omega), scaleDm_eq (k := 2) (by omega) (by norm_num) (by norm_num), tabDm_2, hm, rs (j := i), rm]
    have z := scal_same s1 hj
    unfold dm10
    simp only [half_eq, half_neg, mul_one, one_mul, if_true, one_ne_zero, if_false]
    by_cases hc : i = 0
    · rw [if_pos hc, if_pos hc, e1, e2, hc]; exact ⟨rfl, rfl⟩
    · have hSr : (1 : ℝ) ≤ S' := by exact_mod_cast (by omega : 1 ≤ S')
      have r := r1_same hD hQ (by omega) (by omega) i (by omega)
      rw [div_self (by linarith), Real.sqrt_one] at r
      have a : (S' : ℝ) ≠ 0 := by linarith
      rw [if_neg hc, if_neg hc, e1, e2]
      by_cases hd : i = S'
      · subst hd
        rw [if_pos rfl, if_pos rfl]
        rw [show ((i : ℝ) - 2 * i) / i = -1 by field_simp; ring] at r
        constructor
        · linear_combination (-1 / 2) * r - 1 / 2 * z
        · linear_combination (1 / 2) * r - 1 / 2 * z
      · rw [if_neg hd, if_neg hd]
        field_simp at r
        constructor
        · field_simp
          linear_combination (-1) * r - 1 * S' * z
        · field_simp
          linear_combination (1) * r - 1 * S' * z

theorem scale_one_10 {S' S : ℕ} (h : S' + 1 = S) : scaleH (S' + 1) 0 (S + 1) (S - 2 * (0 : ℕ)) = 1 := by
  have hSr : (1 : ℝ) ≤ S := by exact_mod_cast (by omega : 1 ≤ S)
  rw [scaleH_eq (k := 1) (by omega) (by norm_num) (by norm_num), Nat.cast_zero, tabH_1_0 (by linarith) (by linarith),
    show ((S : ℝ) / 2 - 0 + S / 2) / (2 * (S / 2)) = 1 by rw [show 2 * ((S : ℝ) / 2) = S by ring, show (S : ℝ) / 2 - 0 + S / 2 = S by ring]
                                                          exact div_self (by linarith), Real.sqrt_one]

theorem phh_a {A B C D : ℕ → ℕ → ℝ} {dm0 : T3} {r p q : ℕ} (hD : Dn0 S' S D) (hQ : Up S' S D fun i j => A i j - B i j + C i j)
    (s1 : Dn0 S' S fun i j => A i j + B i j) (s2 : Dn0 S' S fun i j => B i j + C i j)
    (w1 : ∀ i j, j + 2 ≤ i → i ≤ S' → A i j + B i j = 0) (w2 : ∀ i j, j + 2 ≤ i → i ≤ S' → B i j + C i j = 0)
    (va : ∀ i j, j + 3 ≤ i → i ≤ S' → A i j = 0) (vb : ∀ i j, j + 3 ≤ i → i ≤ S' → B i j = 0)
    (ua : ∀ i j, i + 2 ≤ j → j ≤ S → A i j = 0) (ub : ∀ i j, i + 2 ≤ j → j ≤ S → B i j = 0) {i j i0 j0 : ℕ}
    (x : Ix S' S 1 i j i0 j0) (e1 : dm0 0 r p q = A i0 j0) (e2 : dm0 1 r p q = B i0 j0) (e3 : dm0 1 q p r = C i0 j0) :
    mdownPhh dm0 (S' + 1) 0 (S + 1) (S - 2 * j) 0 r p q = A i j ∧ mdownPhh dm0 (S' + 1) 0 (S + 1) (S - 2 * j) 1 r p q = B i j := by
  have t1 := half_a s1 w1 x
  have t2 := half_a s2 w2 x
  obtain ⟨hi, hj, hij, h0, hz⟩ := x
  have hjr : (j : ℝ) ≤ S := by exact_mod_cast hj
  have hj0 : (0 : ℝ) ≤ j := Nat.cast_nonneg j
  unfold mdownPhh
  simp only [zero_ne_one, and_false, if_false, and_true]
  rcases (by omega : S' + 5 ≤ S ∨ S' + 3 = S ∨ S' + 1 = S ∨ S' = S + 1 ∨ S' = S + 3 ∨ S + 5 ≤ S') with h | h | h | h | h | h
  · rw [if_neg (by omega), if_neg (by omega), scaleH_out (by omega), ua i j (by omega) hj, ub i j (by omega) hj, mul_zero, mul_zero]
    exact ⟨rfl, rfl⟩
  · rw [if_neg (by omega), if_neg (by omega), e1, e2]
    obtain ⟨rfl, rfl, rfl⟩ : j = i + 1 ∧ i0 = 0 ∧ j0 = 1 := by omega
    have hSr : (3 : ℝ) ≤ S := by exact_mod_cast (by omega : 3 ≤ S)
    have hir : (i : ℝ) + 3 ≤ S := by exact_mod_cast (by omega : i + 3 ≤ S)
    have z1 := s1.van i (i + 1) (by omega) hj
    have z2 := s2.van i (i + 1) (by omega) hj
    have y1 := s1.van 0 1 (by omega) (by omega)
    have y2 := s2.van 0 1 (by omega) (by omega)
    have rr := r3_down3 hD hQ h i (by omega)
    rw [scaleH_eq (k := 0) (by omega) (by norm_num) (by norm_num),
      tabH_0_0 (by push_cast; linarith) (by push_cast; linarith) (by push_cast; linarith) (by linarith),
      show (-((S : ℝ) / 2 - ((i + 1 : ℕ) : ℝ)) + S / 2) * ((S : ℝ) / 2 - ((i + 1 : ℕ) : ℝ) + S / 2) *
          ((S : ℝ) / 2 - ((i + 1 : ℕ) : ℝ) + S / 2 - 1) / (2 * ((S : ℝ) / 2 - 1) * (2 * ((S : ℝ) / 2) - 1)) =
        ((i : ℝ) + 1) * (S - i - 1) * (S - i - 2) / ((S - 1) * (S - 2)) by push_cast; congr 1 <;> ring]
    generalize √(((i : ℝ) + 1) * (S - i - 1) * (S - i - 2) / ((S - 1) * (S - 2))) = u at rr ⊢
    constructor
    · linear_combination -(1 / 3) * rr - 2 / 3 * z1 + 1 / 3 * z2 + 2 / 3 * u * y1 - 1 / 3 * u * y2
    · linear_combination 1 / 3 * rr - 1 / 3 * z1 - 1 / 3 * z2 + 1 / 3 * u * y1 + 1 / 3 * u * y2
  · rw [if_pos (by omega), rs (j := j), rm]
    obtain ⟨rfl, rfl, rfl⟩ : i = j ∧ i0 = 0 ∧ j0 = 0 := by omega
    unfold phh0 tr3
    simp only [half_eq, one_mul, if_true, one_ne_zero, if_false]
    by_cases hc : i = 0
    · subst hc
      rw [if_pos rfl, if_pos rfl, e1, e2, scale_one_10 h, mul_one, mul_one]; exact ⟨rfl, rfl⟩
    · have hSr : (2 : ℝ) ≤ S := by exact_mod_cast (by omega : 2 ≤ S)
      have rr := r3_down1 hD hQ (by omega) (by omega) i (by omega)
      have hsc : scaleH (S' + 1) 0 (S + 1) (S - 2 * i) = √((S - (i : ℝ)) / S) := by
        rw [scaleH_eq (k := 1) (by omega) (by norm_num) (by norm_num), tabH_1_0 (by linarith) (by linarith)]
        congr 2 <;> ring
      rw [if_neg hc, if_neg hc, e1, e2, e3]
      rw [hsc] at t1 t2 ⊢
      generalize √((S - (i : ℝ)) / S) = u at rr t1 t2 ⊢
      have a : (S : ℝ) - 1 ≠ 0 := by linarith
      rw [show 2 * ((S : ℝ) / 2) = S by ring]
      rw [show u * (((S : ℝ) - 1 - 3 * i) / (S - 1)) * (A 0 0 - B 0 0 + C 0 0) =
        u * ((S : ℝ) - 1 - 3 * i) * (A 0 0 - B 0 0 + C 0 0) / (S - 1) by ring, eq_div_iff a] at rr
      constructor
      · field_simp
        linear_combination -(2 / 3) * rr + 4 / 3 * (S - 1) * t1 - 2 / 3 * (S - 1) * t2
      · field_simp
        linear_combination 2 / 3 * rr + 2 / 3 * (S - 1) * t1 + 2 / 3 * (S - 1) * t2
  · rw [if_neg (by omega), if_pos (by omega), rs (j := j), rm]
    obtain ⟨rfl, rfl, rfl⟩ : i = 1 + j ∧ i0 = 1 ∧ j0 = 0 := by omega
    have hsc : scaleH (S' + 1) 0 (S + 1) (S - 2 * j) = √(((j : ℝ) + 1) / 1) := by
      rw [scaleH_eq (k := 2) (by omega) (by norm_num) (by norm_num), tabH_2_0]
      congr 1; ring
    unfold phh2 tr3
    simp only [half_eq, one_mul, if_true, one_ne_zero, if_false]
    by_cases hc : j = 0
    · subst hc
      rw [if_pos rfl, if_pos rfl, e1, e2, hsc]; simp
    · have hSr : (1 : ℝ) ≤ S := by exact_mod_cast (by omega : 1 ≤ S)
      have rr := r3_up1 hD hQ (by omega) (by omega) j (by omega)
      rw [if_neg hc, if_neg hc, e1, e2, e3]
      rw [hsc] at t1 t2 ⊢
      generalize √(((j : ℝ) + 1) / 1) = u at rr t1 t2 ⊢
      have a : (S : ℝ) ≠ 0 := by linarith
      rw [show u * ((2 * (S : ℝ) - 3 * j) / (2 * S)) * (A 1 0 - B 1 0 + C 1 0) =
        u * (2 * (S : ℝ) - 3 * j) * (A 1 0 - B 1 0 + C 1 0) / (2 * S) by ring, eq_div_iff (by simpa using a)] at rr
      constructor
      · field_simp
        linear_combination -(1 / 3) * rr * 2 + 2 / 3 * (2 * S) * t1 * 2 - 1 / 3 * (2 * S) * t2 * 2
      · field_simp
        linear_combination 1 / 3 * rr * 2 + 1 / 3 * (2 * S) * t1 * 2 + 1 / 3 * (2 * S) * t2 * 2
  · rw [if_neg (by omega), if_neg (by omega), e1, e2]
    obtain ⟨rfl, rfl, rfl⟩ : i = 2 + j ∧ i0 = 2 ∧ j0 = 0 := by omega
    have z1 := w1 (2 + j) j (by omega) hi
    have z2 := w2 (2 + j) j (by omega) hi
    have y1 := w1 2 0 (by omega) (by omega)
    have y2 := w2 2 0 (by omega) (by omega)
    have rr := r3_up3 hD hQ (by omega) (by omega) j (by omega)
    rw [scaleH_eq (k := 3) (by omega) (by norm_num) (by norm_num), tabH_3_0 (by linarith) (by linarith),
      show (-((S : ℝ) / 2 - (j : ℝ)) + S / 2 + 1) * (-((S : ℝ) / 2 - (j : ℝ)) + S / 2 + 2) *
          ((S : ℝ) / 2 - (j : ℝ) + S / 2 + 1) / (2 * (2 * ((S : ℝ) / 2) + 1)) =
        ((j : ℝ) + 1) * ((j : ℝ) + 2) * (S - (j : ℝ) + 1) / (2 * (S + 1)) by congr 1 <;> ring]
    generalize √(((j : ℝ) + 1) * ((j : ℝ) + 2) * (S - (j : ℝ) + 1) / (2 * (S + 1))) = u at rr ⊢
    constructor
    · linear_combination -(1 / 3) * rr - 2 / 3 * z1 + 1 / 3 * z2 + 2 / 3 * u * y1 - 1 / 3 * u * y2
    · linear_combination 1 / 3 * rr - 1 / 3 * z1 - 1 / 3 * z2 + 1 / 3 * u * y1 + 1 / 3 * u * y2
  · rw [if_neg (by omega), if_neg (by omega), scaleH_out (by omega), va i j (by omega) hi, vb i j (by omega) hi, mul_zero, mul_zero]
    exact ⟨rfl, rfl⟩

end Verif.RdmSmult
