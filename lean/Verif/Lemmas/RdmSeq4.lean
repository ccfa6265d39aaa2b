import Verif.Lemmas.RdmSeq3
/-!
# Lemmas: two-body density matrices
-/
namespace Verif.RdmSmult
open Verif.Wigner

variable {S' S : ℕ}

theorem up_dn_van {V W : ℕ → ℕ → ℝ} (hV : Dn0 S' S V) (hW : Up S' S V W) {i j : ℕ} (h : i + 2 ≤ j) (hj : j ≤ S) : W i j = 0 := by
  obtain ⟨k, rfl⟩ : ∃ k, j = k + 1 := ⟨j - 1, by omega⟩
  rw [← hW.succ i k, hV.van (i + 1) (k + 1) (by omega) hj, hV.van i k (by omega) (by omega)]
  ring

theorem half_eq1' {S j : ℕ} : ((S : ℝ) / 2 - j = 1 - S / 2) ↔ j + 1 = S := by
  constructor
  · intro h
    have : (j : ℝ) + 1 = S := by linarith
    exact_mod_cast this
  · intro h
    have : (j : ℝ) + 1 = S := by exact_mod_cast h
    linarith

/-- What is used of the two-body operators: `N` and its commutators with `S+`. -/
structure Two (S' S : ℕ) (AA AB BA BB X Y : ℕ → ℕ → ℝ) : Prop where
  rank2 : ∃ N M, Dn0 S' S N ∧ Up S' S N M ∧ Up S' S M fun i j => 2 * (AA i j + BB i j - AB i j - BA i j + X i j + Y i j)
  rank1a : ∃ V, Dn0 S' S V ∧ Up S' S V fun i j => Y i j - BA i j + AB i j - X i j
  rank1b : ∃ V, Dn0 S' S V ∧ Up S' S V fun i j => Y i j - X i j + BA i j - AB i j
  rank1c : ∃ V, Dn0 S' S V ∧ Up S' S V fun i j => 2 * (AA i j - BB i j)
  s1 : Dn0 S' S fun i j => AA i j + BB i j + AB i j + BA i j
  s1' : Up0 S' S fun i j => AA i j + BB i j + AB i j + BA i j
  s2 : Dn0 S' S fun i j => AA i j + BB i j - X i j - Y i j
  s2' : Up0 S' S fun i j => AA i j + BB i j - X i j - Y i j
  vaa : ∀ i j, i + 3 ≤ j → j ≤ S → AA i j = 0
  vab : ∀ i j, i + 3 ≤ j → j ≤ S → AB i j = 0
  vba : ∀ i j, i + 3 ≤ j → j ≤ S → BA i j = 0
  vbb : ∀ i j, i + 3 ≤ j → j ≤ S → BB i j = 0

theorem q_half {Q M N : ℕ → ℕ → ℝ} (hM : Up 1 1 N M) (hQ : Up 1 1 M Q) : Q 0 0 = 0 ∧ Q 1 1 = 0 := by
  have m : M 1 0 = 0 := by rw [← hM.zero 1, c_self]; ring
  constructor
  · rw [← hQ.zero 0, m]; ring
  · rw [← hQ.succ 1 0, m, c_self]; ring

theorem two_dm {AA AB BA BB X Y : ℕ → ℕ → ℝ} (hh : Two S' S AA AB BA BB X Y) {dm0 : T4} {p q r u : ℕ} {i j i0 j0 : ℕ}
    (x : Ix S' S 0 i j i0 j0) (hle : S' ≤ S) (e0 : dm0 0 p q r u = AA i0 j0) (e1 : dm0 1 p q r u = AB i0 j0)
    (e2 : dm0 2 p q r u = BA i0 j0) (e3 : dm0 3 p q r u = BB i0 j0) (f0 : dm0 0 p u r q = -AA i0 j0) (f3 : dm0 3 p u r q = -BB i0 j0)
    (f : dm0 1 p u r q + dm0 2 p u r q = X i0 j0 + Y i0 j0) :
    mdownDm2 dm0 (S' + 1) (S + 1) (S - 2 * j) 0 p q r u = AA i j ∧ mdownDm2 dm0 (S' + 1) (S + 1) (S - 2 * j) 1 p q r u = AB i j ∧
    mdownDm2 dm0 (S' + 1) (S + 1) (S - 2 * j) 2 p q r u = BA i j ∧ mdownDm2 dm0 (S' + 1) (S + 1) (S - 2 * j) 3 p q r u = BB i j := by
  obtain ⟨⟨N, M, hN, hM, hQ⟩, ⟨V1, hV1, hW1⟩, ⟨V2, hV2, hW2⟩, ⟨V3, hV3, hW3⟩, s1, s1', s2, s2', vaa, vab, vba, vbb⟩ := hh
  obtain ⟨hi, hj, hij, h0, hz⟩ := x
  have hjr : (j : ℝ) ≤ S := by exact_mod_cast hj
  have hj0 : (0 : ℝ) ≤ j := Nat.cast_nonneg j
  have hm : max ((S' : ℤ) + 1) (S + 1) = S + 1 := by omega
  have habs : |((S' : ℤ) + 1) - (S + 1)| = S - S' := by rw [abs_of_nonpos (by omega)]; omega
  unfold mdownDm2
  rw [habs, hm, rs (j := j), rm]
  rcases (by omega : S' + 6 ≤ S ∨ S' + 4 = S ∨ S' + 2 = S ∨ S' = S) with h | h | h | h
  · rw [if_neg (by omega), if_neg (by omega), scaleDm_out (by omega), vaa i j (by omega) hj, vab i j (by omega) hj,
      vba i j (by omega) hj, vbb i j (by omega) hj, mul_zero, mul_zero, mul_zero, mul_zero]
    exact ⟨rfl, rfl, rfl, rfl⟩
  · rw [if_neg (by omega), if_neg (by omega), e0, e1, e2, e3]
    obtain ⟨rfl, rfl, rfl⟩ : j = i + 2 ∧ i0 = 0 ∧ j0 = 2 := by omega
    have hSr : (4 : ℝ) ≤ S := by exact_mod_cast (by omega : 4 ≤ S)
    have hir : (i : ℝ) + 4 ≤ S := by exact_mod_cast (by omega : i + 4 ≤ S)
    have hi0 : (0 : ℝ) ≤ i := Nat.cast_nonneg i
    have rr := r2_down2 hN hM hQ h i (by omega)
    have a1 := up_dn_van hV1 hW1 (i := i) (j := i + 2) le_rfl hj
    have a2 := up_dn_van hV2 hW2 (i := i) (j := i + 2) le_rfl hj
    have a3 := up_dn_van hV3 hW3 (i := i) (j := i + 2) le_rfl hj
    have b1 := up_dn_van hV1 hW1 (i := 0) (j := 2) le_rfl (by omega)
    have b2 := up_dn_van hV2 hW2 (i := 0) (j := 2) le_rfl (by omega)
    have b3 := up_dn_van hV3 hW3 (i := 0) (j := 2) le_rfl (by omega)
    have c1 := s1.van i (i + 2) (by omega) hj
    have c2 := s2.van i (i + 2) (by omega) hj
    have d1 := s1.van 0 2 (by omega) (by omega)
    have d2 := s2.van 0 2 (by omega) (by omega)
    rw [scaleDm_eq (k := 0) (by omega) (by norm_num) (by norm_num),
      tabDm_0 (by push_cast; linarith) (by push_cast; linarith) (by push_cast; linarith) (by push_cast; linarith) (by linarith),
      show (-((S : ℝ) / 2 - ((i + 2 : ℕ) : ℝ)) + S / 2) * ((S : ℝ) / 2 - ((i + 2 : ℕ) : ℝ) + S / 2) *
          (-((S : ℝ) / 2 - ((i + 2 : ℕ) : ℝ)) + S / 2 - 1) * ((S : ℝ) / 2 - ((i + 2 : ℕ) : ℝ) + S / 2 - 1) /
          (4 * ((2 * ((S : ℝ) / 2) - 3) * ((S : ℝ) / 2 - 1))) =
        ((i : ℝ) + 2) * (i + 1) * (S - i - 2) * (S - i - 3) / (2 * ((S - 3) * (S - 2))) by push_cast; congr 1 <;> ring]
    generalize √(((i : ℝ) + 2) * (i + 1) * (S - i - 2) * (S - i - 3) / (2 * ((S - 3) * (S - 2)))) = v at rr ⊢
    have g1 : AA 0 2 * v + BB 0 2 * v = AA i (i + 2) + BB i (i + 2) := by linear_combination -(1 / 6) * rr + 1 / 3 * (d1 + d2) * v - 1 / 3 * (c1 + c2)
    refine ⟨?_, ?_, ?_, ?_⟩
    · linear_combination 1 / 2 * g1 + 1 / 4 * b3 * v - 1 / 4 * a3
    · linear_combination -(1 / 2) * g1 + 1 / 4 * (b1 - b2) * v - 1 / 4 * (a1 - a2) + 1 / 2 * d1 * v - 1 / 2 * c1
    · linear_combination -(1 / 2) * g1 - 1 / 4 * (b1 - b2) * v + 1 / 4 * (a1 - a2) + 1 / 2 * d1 * v - 1 / 2 * c1
    · linear_combination 1 / 2 * g1 - 1 / 4 * b3 * v + 1 / 4 * a3
  · rw [if_pos (by omega)]
    obtain ⟨rfl, rfl, rfl⟩ : j = i + 1 ∧ i0 = 0 ∧ j0 = 1 := by omega
    have hSr : (2 : ℝ) ≤ S := by exact_mod_cast (by omega : 2 ≤ S)
    have hsc : scaleDm (S' + 1) (S + 1) (S - 2 * (i + 1 : ℕ)) = √(((i : ℝ) + 1) * (S - i - 1) / (S - 1)) := by
      rw [scaleDm_eq (k := 1) (by omega) (by norm_num) (by norm_num), tabDm_1 (by linarith) (by linarith) (by linarith)]
      congr 1; push_cast; congr 1 <;> ring
    unfold dm20 tr4
    simp only [half_eq1, half_eq1', one_mul, if_true, one_ne_zero, if_false, show (2 : ℕ) ≠ 0 from by norm_num,
      show (2 : ℕ) ≠ 1 from by norm_num, show (3 : ℕ) ≠ 0 from by norm_num, show (3 : ℕ) ≠ 1 from by norm_num,
      show (3 : ℕ) ≠ 2 from by norm_num, e0, e1, e2, e3, f0, f3]
    by_cases hc : i = 0
    · subst hc
      have : (((0 : ℕ) : ℝ) + 1) * (S - ((0 : ℕ) : ℝ) - 1) / (S - 1) = 1 := by
        rw [Nat.cast_zero, zero_add, one_mul, sub_zero]; exact div_self (by linarith)
      rw [if_pos rfl, if_pos rfl, if_pos rfl, if_pos rfl, hsc, this, Real.sqrt_one, mul_one, mul_one, mul_one, mul_one]
      exact ⟨rfl, rfl, rfl, rfl⟩
    · have hS3 : (3 : ℝ) ≤ S := by exact_mod_cast (by omega : 3 ≤ S)
      have rr := r2_down1 hN hM hQ h (by omega) i (by omega)
      have a1 := r1_down hV1 hW1 h i (by omega)
      have a2 := r1_down hV2 hW2 h i (by omega)
      have a3 := r1_down hV3 hW3 h i (by omega)
      have c1 := s1.van i (i + 1) (by omega) hj
      have c2 := s2.van i (i + 1) (by omega) hj
      have d1 := s1.van 0 1 (by omega) (by omega)
      have d2 := s2.van 0 1 (by omega) (by omega)
      have hc' : ¬ (i + 1 = 1) := by omega
      rw [if_neg hc', if_neg hc', if_neg hc', if_neg hc', hsc]
      generalize √(((i : ℝ) + 1) * (S - i - 1) / (S - 1)) = v at rr a1 a2 a3 ⊢
      have a : (S : ℝ) - 2 ≠ 0 := by linarith
      have g1 : v * (((S : ℝ) - 2 * i - 2) / (S - 2)) * (AA 0 1 + BB 0 1) = AA i (i + 1) + BB i (i + 1) := by
        linear_combination -(1 / 6) * rr + 1 / 3 * (d1 + d2) * (v * (((S : ℝ) - 2 * i - 2) / (S - 2))) - 1 / 3 * (c1 + c2)
      by_cases hd : i + 1 + 1 = S
      · have hdr : (S : ℝ) = i + 2 := by exact_mod_cast hd.symm
        rw [if_pos hd, if_pos hd, if_pos hd, if_pos hd]
        have ha : ((S : ℝ) - 2 * i - 2) / (S - 2) = -1 := by rw [div_eq_iff a, hdr]; ring
        rw [ha] at g1
        refine ⟨?_, ?_, ?_, ?_⟩
        · linear_combination 1 / 2 * g1 - 1 / 4 * a3
        · linear_combination -(1 / 2) * g1 - 1 / 4 * (a1 - a2) + 1 / 2 * d1 * v - 1 / 2 * c1
        · linear_combination -(1 / 2) * g1 + 1 / 4 * (a1 - a2) + 1 / 2 * d1 * v - 1 / 2 * c1
        · linear_combination 1 / 2 * g1 + 1 / 4 * a3
      · rw [if_neg hd, if_neg hd, if_neg hd, if_neg hd]
        have ha : ((S : ℝ) - 2 * i - 2) / (S - 2) = 1 - 2 * (i / (S - 2)) := by field_simp; ring
        have hb : (1 : ℝ) / 2 * ((S : ℝ) / 2 - ((i + 1 : ℕ) : ℝ) - S / 2 + 1) / (S / 2 - 1) = -(i / (S - 2)) := by
          rw [show (S : ℝ) / 2 - 1 = (S - 2) / 2 by ring]; push_cast; field_simp; ring
        have hb' : (1 : ℝ) / 2 * ((S : ℝ) / 2 - ((i + 1 : ℕ) : ℝ) + S / 2 - 1) / (S / 2 - 1) = 1 - i / (S - 2) := by
          rw [show (S : ℝ) / 2 - 1 = (S - 2) / 2 by ring]; push_cast; field_simp; ring
        have hb2 : (1 : ℝ) / 2 * (-((S : ℝ) / 2 - ((i + 1 : ℕ) : ℝ)) + S / 2 - 1) / (S / 2 - 1) = i / (S - 2) := by
          rw [show (S : ℝ) / 2 - 1 = (S - 2) / 2 by ring]; push_cast; field_simp; ring
        have hb3 : (-1 : ℝ) / 2 * (-((S : ℝ) / 2 - ((i + 1 : ℕ) : ℝ)) + S / 2 - 1) / (S / 2 - 1) = -(i / (S - 2)) := by
          rw [show (S : ℝ) / 2 - 1 = (S - 2) / 2 by ring]; push_cast; field_simp; ring
        rw [ha] at g1
        rw [hb, hb', hb2, hb3]
        generalize (i : ℝ) / (S - 2) = w at g1 ⊢
        refine ⟨?_, ?_, ?_, ?_⟩
        · linear_combination 1 / 2 * g1 - 1 / 4 * a3
        · linear_combination -(1 / 2) * g1 - 1 / 4 * (a1 - a2) + 1 / 2 * d1 * v - 1 / 2 * c1
        · linear_combination -(1 / 2) * g1 + 1 / 4 * (a1 - a2) + 1 / 2 * d1 * v - 1 / 2 * c1
        · linear_combination 1 / 2 * g1 + 1 / 4 * a3
  · subst h
    obtain ⟨rfl, rfl, rfl⟩ : i = j ∧ i0 = 0 ∧ j0 = 0 := by omega
    rw [if_neg (by omega), if_pos (by omega), scaleDm_eq (k := 2) (by omega) (by norm_num) (by norm_num), tabDm_2]
    unfold dm21 tr4
    simp only [half_eq, half_neg, one_mul, mul_one, if_true, one_ne_zero, if_false, show (2 : ℕ) ≠ 0 from by norm_num,
      show (2 : ℕ) ≠ 1 from by norm_num, show (3 : ℕ) ≠ 0 from by norm_num, show (3 : ℕ) ≠ 1 from by norm_num,
      show (3 : ℕ) ≠ 2 from by norm_num, e0, e1, e2, e3, f0, f3]
    by_cases hc : i = 0
    · subst hc
      rw [if_pos rfl, if_pos rfl, if_pos rfl, if_pos rfl]; exact ⟨rfl, rfl, rfl, rfl⟩
    · have hS1 : (1 : ℝ) ≤ S' := by exact_mod_cast (by omega : 1 ≤ S')
      have a1 := r1_same hV1 hW1 (by omega) (by omega) i (by omega)
      have a2 := r1_same hV2 hW2 (by omega) (by omega) i (by omega)
      have a3 := r1_same hV3 hW3 (by omega) (by omega) i (by omega)
      have c1 := scal_same s1 hj
      have c2 := scal_same s2 hj
      rw [div_self (by linarith), Real.sqrt_one] at a1 a2 a3
      rw [if_neg hc, if_neg hc, if_neg hc, if_neg hc]
      by_cases hd : i = S'
      · subst hd
        rw [if_pos rfl, if_pos rfl, if_pos rfl, if_pos rfl]
        have ha : ((i : ℝ) - 2 * i) / i = -1 := by rw [div_eq_iff (by linarith)]; ring
        rw [ha] at a1 a2 a3
        have g1 : AA i i + BB i i = AA 0 0 + BB 0 0 := by
          by_cases h1 : i = 1
          · subst h1
            obtain ⟨k0, k1⟩ := q_half hM hQ
            linear_combination 1 / 6 * (k1 - k0) + 1 / 3 * (c1 + c2)
          · have rr := r2_same hN hM hQ (by omega) i le_rfl
            have h2 : (2 : ℝ) ≤ i := by exact_mod_cast (by omega : 2 ≤ i)
            have h3 : (i : ℝ) - 1 ≠ 0 := by linarith
            have h4 : (i : ℝ) ≠ 0 := by linarith
            have hb : (3 * ((i : ℝ) - 2 * i) ^ 2 - i * (i + 2)) / (2 * i * (i - 1)) = 1 := by
              rw [div_eq_iff (by positivity)]; ring
            rw [hb] at rr
            linear_combination 1 / 6 * rr + 1 / 3 * (c1 + c2)
        refine ⟨?_, ?_, ?_, ?_⟩
        · linear_combination -(1 / 2) * g1 - 1 / 4 * a3
        · linear_combination 1 / 2 * g1 - 1 / 4 * (a1 - a2) - 1 / 2 * c1
        · linear_combination 1 / 2 * g1 + 1 / 4 * (a1 - a2) - 1 / 2 * c1
        · linear_combination -(1 / 2) * g1 + 1 / 4 * a3
      · have h2 : (2 : ℝ) ≤ S' := by exact_mod_cast (by omega : 2 ≤ S')
        have rr := r2_same hN hM hQ (by omega) i hj
        rw [if_neg hd, if_neg hd, if_neg hd, if_neg hd]
        have k0 : (S' : ℝ) ≠ 0 := by linarith
        have k1 : (S' : ℝ) - 1 ≠ 0 := by linarith
        obtain ⟨y, hy⟩ : ∃ y : ℝ, y = ((i : ℝ) / S') * ((S' - i) / (S' - 1)) := ⟨_, rfl⟩
        obtain ⟨w, hw⟩ : ∃ w : ℝ, w = (i : ℝ) / S' := ⟨_, rfl⟩
        have q1 : (3 * ((S' : ℝ) - 2 * i) ^ 2 - S' * (S' + 2)) / (2 * S' * (S' - 1)) = 1 - 6 * y := by rw [hy]; field_simp; ring
        have q2 : ((S' : ℝ) - 2 * i) / S' = 1 - 2 * w := by rw [hw]; field_simp
        rw [q1] at rr
        rw [q2] at a1 a2 a3
        have den : (S' : ℝ) / 2 * (2 * (S' / 2) - 1) = S' * (S' - 1) / 2 := by ring
        have m1 : (1 : ℝ) / 2 * (-((S' : ℝ) / 2 - i) ^ 2 + (S' / 2) ^ 2) / (S' / 2 * (2 * (S' / 2) - 1)) = y := by
          rw [den, hy]; field_simp; ring
        have m1' : (1 : ℝ) / 2 * (((S' : ℝ) / 2 - i) ^ 2 - (S' / 2) ^ 2) / (S' / 2 * (2 * (S' / 2) - 1)) = -y := by
          rw [den, hy]; field_simp; ring
        have m1'' : (-1 : ℝ) / 2 * (-((S' : ℝ) / 2 - i) ^ 2 + (S' / 2) ^ 2) / (S' / 2 * (2 * (S' / 2) - 1)) = -y := by
          rw [den, hy]; field_simp; ring
        have m2 : (1 : ℝ) / 2 * (((S' : ℝ) / 2 - i) ^ 2 + 2 * (S' / 2 - i) * (S' / 2) - (S' / 2 - i) + (S' / 2) ^ 2 - S' / 2) /
            (S' / 2 * (2 * (S' / 2) - 1)) = 1 - w - y := by rw [den, hy, hw]; field_simp; ring
        have m3 : (1 : ℝ) / 2 * (((S' : ℝ) / 2 - i) ^ 2 - 2 * (S' / 2 - i) * (S' / 2) + (S' / 2 - i) + (S' / 2) ^ 2 - S' / 2) /
            (S' / 2 * (2 * (S' / 2) - 1)) = w - y := by rw [den, hy, hw]; field_simp; ring
        rw [m1, m1', m1'', m2, m3]
        clear m1 m1' m1'' m2 m3 q1 q2 hy hw
        have g1 : AA i i + BB i i = AA 0 0 + BB 0 0 - 2 * y * (AA 0 0 + BB 0 0 - AB 0 0 - BA 0 0 + X 0 0 + Y 0 0) := by
          linear_combination 1 / 6 * rr + 1 / 3 * (c1 + c2)
        refine ⟨?_, ?_, ?_, ?_⟩
        · linear_combination -(1 / 2) * g1 - 1 / 4 * a3 - y * f
        · linear_combination 1 / 2 * g1 - 1 / 4 * (a1 - a2) - 1 / 2 * c1 + y * f
        · linear_combination 1 / 2 * g1 + 1 / 4 * (a1 - a2) - 1 / 2 * c1 + y * f
        · linear_combination -(1 / 2) * g1 + 1 / 4 * a3 - y * f

end Verif.RdmSmult
