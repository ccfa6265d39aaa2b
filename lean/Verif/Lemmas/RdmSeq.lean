import Verif.Lemmas.RdmScale
/-!
# Lemmas: matrix elements of tensor operators follow from the highest ones with the factors of rdm_smult.py
-/
namespace Verif.RdmSmult
open Verif.Wigner

variable {S' S : ℕ}

/-- `i`, `j` count the lowerings of bra and ket from their highest projections; the operator changes twice the projection by `-k`;
`i0`, `j0` are those of the vectors of highest projections. -/
structure Ix (S' S : ℕ) (k : ℤ) (i j i0 j0 : ℕ) : Prop where
  hi : i ≤ S'
  hj : j ≤ S
  hij : 2 * (i : ℤ) = S' - S + 2 * j + k
  h0 : 2 * (i0 : ℤ) = S' - S + 2 * j0 + k
  hz : i0 = 0 ∨ j0 = 0

theorem Ix.swap {k : ℤ} {i j i0 j0 : ℕ} (x : Ix S' S k i j i0 j0) : Ix S S' (-k) j i j0 i0 := by
  obtain ⟨a, b, c, d, e⟩ := x
  exact ⟨b, a, by omega, by omega, by omega⟩

theorem half_a {F : ℕ → ℕ → ℝ} (hD : Dn0 S' S F) (hv : ∀ i j, j + 2 ≤ i → i ≤ S' → F i j = 0) {i j i0 j0 : ℕ}
    (x : Ix S' S 1 i j i0 j0) : F i0 j0 * scaleH (S' + 1) 0 (S + 1) (S - 2 * j) = F i j := by
  obtain ⟨hi, hj, hij, h0, hz⟩ := x
  have hjr : (j : ℝ) ≤ S := by exact_mod_cast hj
  have hj0 : (0 : ℝ) ≤ j := Nat.cast_nonneg j
  rcases (by omega : S' + 5 ≤ S ∨ S' + 3 = S ∨ S' + 1 = S ∨ S' = S + 1 ∨ S' = S + 3 ∨ S + 5 ≤ S') with h | h | h | h | h | h
  · rw [scaleH_out (by omega), hD.van i j (by omega) hj, mul_zero]
  · rw [hD.van i j (by omega) hj, hD.van i0 j0 (by omega) (by omega), zero_mul]
  · obtain ⟨rfl, rfl, rfl⟩ : i = j ∧ i0 = 0 ∧ j0 = 0 := by omega
    have hSr : (1 : ℝ) ≤ S := by exact_mod_cast (by omega : 1 ≤ S)
    have e := low hD (d := 0) (e := 1) (by omega) i (by omega)
    rw [zero_add] at e
    rw [scaleH_eq (k := 1) (by omega) (by norm_num) (by norm_num), tabH_1_0 (by linarith) (by linarith), e]
    simp only [asc, desc]
    rw [mul_comm]
    congr 2
    have a2 : (S : ℝ) ≠ 0 := by linarith
    rw [show 2 * ((S : ℝ) / 2) = S by ring]
    push_cast
    rw [sub_zero, sub_zero]
    field_simp
    ring
  · obtain ⟨rfl, rfl, rfl⟩ : i = 1 + j ∧ i0 = 1 ∧ j0 = 0 := by omega
    have e := low hD (d := 1) (e := 0) (by omega) j (by omega)
    rw [scaleH_eq (k := 2) (by omega) (by norm_num) (by norm_num), tabH_2_0, e]
    simp only [asc, desc]
    rw [mul_comm]
    congr 2
    push_cast
    ring
  · rw [hv i j (by omega) hi, hv i0 j0 (by omega) (by omega), zero_mul]
  · rw [scaleH_out (by omega), hv i j (by omega) hi, mul_zero]

theorem half_b {F : ℕ → ℕ → ℝ} (hU : Up0 S' S F) (hv : ∀ i j, i + 2 ≤ j → j ≤ S → F i j = 0) {i j i0 j0 : ℕ}
    (x : Ix S' S (-1) i j i0 j0) : F i0 j0 * scaleH (S' + 1) 1 (S + 1) (S - 2 * j) = F i j := by
  obtain ⟨hi, hj, hij, h0, hz⟩ := x
  have hjr : (j : ℝ) ≤ S := by exact_mod_cast hj
  have hj0 : (0 : ℝ) ≤ j := Nat.cast_nonneg j
  rcases (by omega : S' + 5 ≤ S ∨ S' + 3 = S ∨ S' + 1 = S ∨ S' = S + 1 ∨ S' = S + 3 ∨ S + 5 ≤ S') with h | h | h | h | h | h
  · rw [scaleH_out (by omega), hv i j (by omega) hj, mul_zero]
  · rw [hv i j (by omega) hj, hv i0 j0 (by omega) (by omega), zero_mul]
  · obtain ⟨rfl, rfl, rfl⟩ : j = 1 + i ∧ i0 = 0 ∧ j0 = 1 := by omega
    have e := low hU.swap (d := 1) (e := 0) (by omega) i (by omega)
    rw [scaleH_eq (k := 1) (by omega) (by norm_num) (by norm_num), tabH_1_1, e]
    simp only [asc, desc]
    rw [mul_comm]
    congr 2
    push_cast
    ring
  · obtain ⟨rfl, rfl, rfl⟩ : i = j ∧ i0 = 0 ∧ j0 = 0 := by omega
    have e := low hU.swap (d := 0) (e := 1) (by omega) i (by omega)
    rw [zero_add] at e
    rw [scaleH_eq (k := 2) (by omega) (by norm_num) (by norm_num), tabH_2_1 (by linarith), e]
    simp only [asc, desc]
    rw [mul_comm, h]
    congr 2
    push_cast
    field_simp
    ring
  · rw [hU.van i j (by omega) hi, hU.van i0 j0 (by omega) (by omega), zero_mul]
  · rw [scaleH_out (by omega), hU.van i j (by omega) hi, mul_zero]

theorem one_aa {F : ℕ → ℕ → ℝ} (hD : Dn0 S' S F) (hv : ∀ i j, j + 3 ≤ i → i ≤ S' → F i j = 0) {i j i0 j0 : ℕ}
    (x : Ix S' S 2 i j i0 j0) : F i0 j0 * scaleHh (S' + 1) 0 (S + 1) (S - 2 * j) = F i j := by
  obtain ⟨hi, hj, hij, h0, hz⟩ := x
  have hjr : (j : ℝ) ≤ S := by exact_mod_cast hj
  have hj0 : (0 : ℝ) ≤ j := Nat.cast_nonneg j
  rcases (by omega : S' + 4 ≤ S ∨ S' + 2 = S ∨ S' = S ∨ S' = S + 2 ∨ S + 4 ≤ S') with h | h | h | h | h
  · rw [scaleHh_out (by omega), hD.van i j (by omega) hj, mul_zero]
  · obtain ⟨rfl, rfl, rfl⟩ : i = j ∧ i0 = 0 ∧ j0 = 0 := by omega
    have hSr : (2 : ℝ) ≤ S := by exact_mod_cast (by omega : 2 ≤ S)
    have hir : (i : ℝ) + 2 ≤ S := by exact_mod_cast (by omega : i + 2 ≤ S)
    have e := low hD (d := 0) (e := 2) (by omega) i (by omega)
    rw [zero_add] at e
    rw [scaleHh_eq (k := 0) (by omega) (by norm_num) (by norm_num), tabHh_0_0 (by linarith) (by linarith) (by linarith), e]
    simp only [asc, desc]
    rw [mul_comm]
    congr 2
    have a1 : (S : ℝ) - 1 ≠ 0 := by linarith
    have a2 : (S : ℝ) ≠ 0 := by linarith
    rw [show 2 * ((S : ℝ) / 2) = S by ring]
    push_cast
    rw [sub_zero, sub_zero]
    field_simp
    ring
  · subst h
    obtain ⟨rfl, rfl, rfl⟩ : i = 1 + j ∧ i0 = 1 ∧ j0 = 0 := by omega
    have hSr : (1 : ℝ) ≤ S' := by exact_mod_cast (by omega : 1 ≤ S')
    have e := low hD (d := 1) (e := 1) (by omega) j (by omega)
    rw [scaleHh_eq (k := 1) (by omega) (by norm_num) (by norm_num), tabHh_1_0 (by linarith) (by linarith) (by linarith), e]
    simp only [asc, desc]
    rw [mul_comm]
    congr 2
    have a2 : (S' : ℝ) ≠ 0 := by linarith
    rw [show 2 * ((S' : ℝ) / 2) = S' by ring]
    push_cast
    rw [sub_zero, sub_zero]
    field_simp
    ring
  · obtain ⟨rfl, rfl, rfl⟩ : i = 2 + j ∧ i0 = 2 ∧ j0 = 0 := by omega
    have e := low hD (d := 2) (e := 0) (by omega) j (by omega)
    rw [scaleHh_eq (k := 2) (by omega) (by norm_num) (by norm_num), tabHh_2_0 (by linarith), e]
    simp only [asc, desc]
    rw [mul_comm]
    congr 2
    push_cast
    field_simp
    ring
  · rw [scaleHh_out (by omega), hv i j (by omega) hi, mul_zero]

theorem one_bb {F : ℕ → ℕ → ℝ} (hU : Up0 S' S F) (hv : ∀ i j, i + 3 ≤ j → j ≤ S → F i j = 0) {i j i0 j0 : ℕ}
    (x : Ix S' S (-2) i j i0 j0) : F i0 j0 * scaleHh (S' + 1) 2 (S + 1) (S - 2 * j) = F i j := by
  obtain ⟨hi, hj, hij, h0, hz⟩ := x
  have hjr : (j : ℝ) ≤ S := by exact_mod_cast hj
  have hj0 : (0 : ℝ) ≤ j := Nat.cast_nonneg j
  rcases (by omega : S' + 4 ≤ S ∨ S' + 2 = S ∨ S' = S ∨ S' = S + 2 ∨ S + 4 ≤ S') with h | h | h | h | h
  · rw [scaleHh_out (by omega), hv i j (by omega) hj, mul_zero]
  · obtain ⟨rfl, rfl, rfl⟩ : j = 2 + i ∧ i0 = 0 ∧ j0 = 2 := by omega
    have hSr : (2 : ℝ) ≤ S := by exact_mod_cast (by omega : 2 ≤ S)
    have hi0 : (0 : ℝ) ≤ i := Nat.cast_nonneg i
    have e := low hU.swap (d := 2) (e := 0) (by omega) i (by omega)
    push_cast at hjr
    rw [scaleHh_eq (k := 0) (by omega) (by norm_num) (by norm_num),
      tabHh_0_2 (by push_cast; linarith) (by push_cast; linarith) (by linarith), e]
    simp only [asc, desc]
    rw [mul_comm]
    congr 2
    push_cast
    field_simp
    ring
  · subst h
    obtain ⟨rfl, rfl, rfl⟩ : j = 1 + i ∧ i0 = 0 ∧ j0 = 1 := by omega
    have hSr : (1 : ℝ) ≤ S' := by exact_mod_cast (by omega : 1 ≤ S')
    have e := low hU.swap (d := 1) (e := 1) (by omega) i (by omega)
    push_cast at hjr
    rw [scaleHh_eq (k := 1) (by omega) (by norm_num) (by norm_num),
      tabHh_1_2 (by push_cast; linarith [Nat.cast_nonneg (α := ℝ) i]) (by push_cast; linarith) (by linarith), e]
    simp only [asc, desc]
    rw [mul_comm]
    congr 2
    have a2 : (S' : ℝ) ≠ 0 := by linarith
    rw [show 2 * ((S' : ℝ) / 2) = S' by ring]
    push_cast
    rw [sub_zero, sub_zero]
    field_simp
    ring
  · obtain ⟨rfl, rfl, rfl⟩ : i = j ∧ i0 = 0 ∧ j0 = 0 := by omega
    have e := low hU.swap (d := 0) (e := 2) (by omega) i (by omega)
    rw [zero_add] at e
    rw [scaleHh_eq (k := 2) (by omega) (by norm_num) (by norm_num), tabHh_2_2 (by linarith) (by linarith), e]
    simp only [asc, desc]
    rw [mul_comm, h]
    congr 2
    have a1 : (S : ℝ) + 2 - 1 ≠ 0 := by linarith
    push_cast
    rw [show 2 * ((2 * ((S : ℝ) / 2) + 1) * ((S : ℝ) / 2 + 1)) = ((S : ℝ) + 2 - 1) * (S + 2) by ring, sub_zero, sub_zero]
    field_simp
    ring
  · rw [scaleHh_out (by omega), hU.van i j (by omega) hi, mul_zero]

theorem one_sm {F : ℕ → ℕ → ℝ} (hD : Dn0 S' S F) (hv : ∀ i j, j + 3 ≤ i → i ≤ S' → F i j = 0) {i j i0 j0 : ℕ}
    (x : Ix S' S 2 i j i0 j0) : F i0 j0 * scaleSm (S' + 1) (S + 1) (S - 2 * j) = F i j := by
  rw [← one_aa hD hv x]
  congr 1
  obtain ⟨hi, hj, hij, h0, hz⟩ := x
  have hjr : (j : ℝ) ≤ S := by exact_mod_cast hj
  rcases (by omega : S' + 4 ≤ S ∨ S' + 2 = S ∨ S' = S ∨ S' = S + 2 ∨ S + 4 ≤ S') with h | h | h | h | h
  · rw [scaleHh_out (by omega), scaleSm_out (by omega)]
  · have hSr : (2 : ℝ) ≤ S := by exact_mod_cast (by omega : 2 ≤ S)
    have hir : (j : ℝ) + 2 ≤ S := by exact_mod_cast (by omega : j + 2 ≤ S)
    rw [scaleHh_eq (k := 0) (by omega) (by norm_num) (by norm_num), scaleSm_eq (k := 0) (by omega) (by norm_num) (by norm_num),
      tabHh_0_0 (by linarith) (by linarith) (by linarith), tabSm_hh0 (by linarith) (by linarith) (by linarith)]
  · rw [scaleHh_eq (k := 1) (by omega) (by norm_num) (by norm_num), scaleSm_eq (k := 1) (by omega) (by norm_num) (by norm_num), tabSm_hh1]
  · rw [scaleHh_eq (k := 2) (by omega) (by norm_num) (by norm_num), scaleSm_eq (k := 2) (by omega) (by norm_num) (by norm_num), tabSm_hh2]
  · rw [scaleHh_out (by omega), scaleSm_out (by omega)]

end Verif.RdmSmult
