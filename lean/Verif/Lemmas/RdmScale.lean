import Verif.Model.RdmSmult
import Verif.Lemmas.SpinVan
/-!
# Lemmas: the scale factors of rdm_smult.py
-/
namespace Verif.RdmSmult
open Verif.Wigner

theorem rs {S j : ℕ} : (((S + 1 : ℤ) : ℝ) - 1) / 2 = S / 2 := by push_cast; ring
theorem rm {S j : ℕ} : (((S : ℤ) - 2 * j : ℤ) : ℝ) / 2 = S / 2 - j := by push_cast; ring

theorem scaleH_eq {S' S j : ℕ} {op : ℕ} {k : ℤ} (h : (S' : ℤ) - S + 3 = 2 * k) (h0 : 0 ≤ k) (h4 : k < 4) :
    scaleH (S' + 1) op (S + 1) (S - 2 * j) = tabH k op (S / 2) (S / 2 - j) := by
  unfold scaleH
  dsimp only
  rw [show ((S' + 1 : ℤ) - (S + 1) + 3) / 2 = k by omega, if_neg (by omega), rs (j := j), rm]

theorem scaleH_out {S' S j : ℕ} {op : ℕ} (h : (S' : ℤ) + 5 ≤ S ∨ (S : ℤ) + 5 ≤ S') : scaleH (S' + 1) op (S + 1) (S - 2 * j) = 0 := by
  unfold scaleH
  dsimp only
  rw [if_pos (by omega)]

theorem scaleHh_eq {S' S j : ℕ} {op : ℕ} {k : ℤ} (h : (S' : ℤ) - S + 2 = 2 * k) (h0 : 0 ≤ k) (h4 : k < 3) :
    scaleHh (S' + 1) op (S + 1) (S - 2 * j) = tabHh k op (S / 2) (S / 2 - j) := by
  unfold scaleHh
  dsimp only
  rw [show ((S' + 1 : ℤ) - (S + 1) + 2) / 2 = k by omega, if_neg (by omega), rs (j := j), rm]

theorem scaleHh_out {S' S j : ℕ} {op : ℕ} (h : (S' : ℤ) + 4 ≤ S ∨ (S : ℤ) + 4 ≤ S') : scaleHh (S' + 1) op (S + 1) (S - 2 * j) = 0 := by
  unfold scaleHh
  dsimp only
  rw [if_pos (by omega)]

theorem scaleSm_eq {S' S j : ℕ} {k : ℤ} (h : (S' : ℤ) - S + 2 = 2 * k) (h0 : 0 ≤ k) (h4 : k < 3) :
    scaleSm (S' + 1) (S + 1) (S - 2 * j) = tabSm k (S / 2) (S / 2 - j) := by
  unfold scaleSm
  dsimp only
  rw [show ((S' + 1 : ℤ) - (S + 1) + 2) / 2 = k by omega, if_neg (by omega), rs (j := j), rm]

theorem scaleSm_out {S' S j : ℕ} (h : (S' : ℤ) + 4 ≤ S ∨ (S : ℤ) + 4 ≤ S') : scaleSm (S' + 1) (S + 1) (S - 2 * j) = 0 := by
  unfold scaleSm
  dsimp only
  rw [if_pos (by omega)]

theorem scaleDm_eq {S' S j : ℕ} {k : ℤ} (h : (S' : ℤ) - S + 4 = 2 * k) (h0 : 0 ≤ k) (h4 : k < 3) :
    scaleDm (S' + 1) (S + 1) (S - 2 * j) = tabDm k (S / 2) (S / 2 - j) := by
  unfold scaleDm scaleDmLe
  dsimp only
  rw [if_neg (by omega), show ((S' + 1 : ℤ) - (S + 1) + 4) / 2 = k by omega, if_neg (by omega), rs (j := j), rm]

theorem scaleDm_out {S' S j : ℕ} (h : (S' : ℤ) + 6 ≤ S) : scaleDm (S' + 1) (S + 1) (S - 2 * j) = 0 := by
  unfold scaleDm scaleDmLe
  dsimp only
  rw [if_neg (by omega), if_pos (by omega)]

theorem tabH_0_0 {s m : ℝ} (h1 : 0 ≤ -m + s) (h2 : 0 ≤ m + s) (h3 : 0 ≤ m + s - 1) (h4 : 1 < s) :
    tabH 0 0 s m = √((-m + s) * (m + s) * (m + s - 1) / (2 * (s - 1) * (2 * s - 1))) := by
  have a1 : 0 < s - 1 := by linarith
  have a2 : 0 < 2 * s - 1 := by linarith
  unfold tabH; simp only [if_true]
  refine sqeq (by positivity) (by positivity) ?_
  rw [Real.sq_sqrt (by positivity)]
  simp only [mul_pow, div_pow]
  rw [Real.sq_sqrt h1, Real.sq_sqrt h2, Real.sq_sqrt h3, Real.sq_sqrt a1.le, Real.sq_sqrt a2.le, Real.sq_sqrt (show (0:ℝ) ≤ 2 by norm_num)]
  field_simp
  try ring

theorem tabH_0_1 {s m : ℝ} (h1 : 0 ≤ -m + s) (h2 : 0 ≤ m + s) (h3 : 0 ≤ -m + s - 1) (h4 : 1 < s) :
    tabH 0 1 s m = √((-m + s) * (m + s) * (-m + s - 1) / (4 * (s - 1))) := by
  have a1 : 0 < s - 1 := by linarith
  unfold tabH; simp only [if_true, one_ne_zero, if_false]
  refine sqeq (by positivity) (by positivity) ?_
  rw [Real.sq_sqrt (by positivity)]
  simp only [mul_pow, div_pow]
  rw [Real.sq_sqrt h1, Real.sq_sqrt h2, Real.sq_sqrt h3, Real.sq_sqrt a1.le]
  field_simp
  try ring

theorem tabH_1_0 {s m : ℝ} (h2 : 0 ≤ m + s) (h4 : 0 < s) : tabH 1 0 s m = √((m + s) / (2 * s)) := by
  unfold tabH; simp only [if_true, one_ne_zero, if_false]
  have : 0 ≤ 2 * m + 2 * s := by linarith
  refine sqeq (by positivity) (by positivity) ?_
  rw [Real.sq_sqrt (by positivity)]
  simp only [mul_pow, div_pow]
  rw [Real.sq_sqrt this, Real.sq_sqrt h4.le]
  field_simp
  try ring

theorem tabH_1_1 {s m : ℝ} : tabH 1 1 s m = √(-m + s) := by
  unfold tabH; simp only [if_true, one_ne_zero, if_false]

theorem tabH_2_0 {s m : ℝ} : tabH 2 0 s m = √(-m + s + 1) := by
  unfold tabH; simp

theorem tabH_2_1 {s m : ℝ} (h : 0 ≤ m + s + 1) : tabH 2 1 s m = √((m + s + 1) / (2 * s + 1)) := by
  rw [Real.sqrt_div h]
  unfold tabH; simp

theorem tabH_3_0 {s m : ℝ} (h1 : 0 ≤ -m + s) (h2 : 0 ≤ m + s) :
    tabH 3 0 s m = √((-m + s + 1) * (-m + s + 2) * (m + s + 1) / (2 * (2 * s + 1))) := by
  have a1 : 0 < -m + s + 1 := by linarith
  have a2 : 0 < -m + s + 2 := by linarith
  have a3 : 0 < m + s + 1 := by linarith
  have a4 : 0 < 2 * s + 1 := by linarith
  unfold tabH
  rw [if_neg (by norm_num), if_neg (by norm_num), if_neg (by norm_num), if_pos rfl]
  refine sqeq (by positivity) (by positivity) ?_
  rw [Real.sq_sqrt (by positivity)]
  simp only [mul_pow, div_pow]
  rw [Real.sq_sqrt a1.le, Real.sq_sqrt a2.le, Real.sq_sqrt a3.le, Real.sq_sqrt a4.le, Real.sq_sqrt (show (0:ℝ) ≤ 2 by norm_num)]
  field_simp
  try ring

theorem tabH_3_1 {s m : ℝ} (h1 : 0 ≤ -m + s) (h2 : 0 ≤ m + s) :
    tabH 3 1 s m = √((-m + s + 1) * (m + s + 1) * (m + s + 2) / (2 * ((2 * s + 1) * (s + 1)))) := by
  have a1 : 0 < -m + s + 1 := by linarith
  have a2 : 0 < m + s + 2 := by linarith
  have a3 : 0 < m + s + 1 := by linarith
  have a4 : 0 < 2 * s + 1 := by linarith
  have a5 : 0 < s + 1 := by linarith
  unfold tabH
  rw [if_neg (by norm_num), if_neg (by norm_num), if_neg (by norm_num), if_neg (by norm_num),
    show 2 * s ^ 2 + 3 * s + 1 = (2 * s + 1) * (s + 1) by ring]
  refine sqeq (by positivity) (by positivity) ?_
  rw [Real.sq_sqrt (by positivity)]
  simp only [mul_pow, div_pow]
  rw [Real.sq_sqrt a1.le, Real.sq_sqrt a2.le, Real.sq_sqrt a3.le, Real.sq_sqrt (show (0:ℝ) ≤ 2 by norm_num), Real.sq_sqrt (by positivity)]
  field_simp
  try ring

theorem tabHh_0_0 {s m : ℝ} (h2 : 0 ≤ m + s) (h3 : 0 ≤ m + s - 1) (h4 : 1 ≤ s) :
    tabHh 0 0 s m = √((m + s) * (m + s - 1) / (2 * s * (2 * s - 1))) := by
  have a1 : 0 < s := by linarith
  have a2 : 0 < 2 * s - 1 := by linarith
  unfold tabHh; simp only [if_true]
  refine sqeq (by positivity) (by positivity) ?_
  rw [Real.sq_sqrt (by positivity)]
  simp only [mul_pow, div_pow]
  rw [Real.sq_sqrt h2, Real.sq_sqrt a1.le, Real.sq_sqrt (show (0:ℝ) ≤ 2 by norm_num), Real.sq_sqrt (by positivity)]
  field_simp
  try ring

theorem tabHh_0_1 {s m : ℝ} (h1 : 0 ≤ -m + s) (h2 : 0 ≤ m + s) (h4 : 1 ≤ s) :
    tabHh 0 1 s m = √((-m + s) * (m + s) / (2 * s - 1)) := by
  have a2 : 0 < 2 * s - 1 := by linarith
  unfold tabHh; simp only [if_true, one_ne_zero, if_false]
  refine sqeq (by positivity) (by positivity) ?_
  rw [Real.sq_sqrt (by positivity)]
  simp only [mul_pow, div_pow]
  rw [Real.sq_sqrt h2, Real.sq_sqrt a2.le, Real.sq_sqrt (by positivity), Real.sq_sqrt (by positivity)]
  field_simp

theorem tabHh_0_2 {s m : ℝ} (h1 : 0 ≤ -m + s) (h3 : 0 ≤ -m + s - 1) (h4 : 1 ≤ s) :
    tabHh 0 2 s m = √((-m + s) * (-m + s - 1) / 2) := by
  have a2 : 0 < 2 * s - 1 := by linarith
  unfold tabHh
  rw [if_pos rfl, if_neg (by norm_num), if_neg (by norm_num)]
  refine sqeq (by positivity) (by positivity) ?_
  rw [Real.sq_sqrt (by positivity)]
  simp only [mul_pow, div_pow]
  rw [Real.sq_sqrt h1, Real.sq_sqrt (show (0:ℝ) ≤ 2 by norm_num), Real.sq_sqrt (by positivity), Real.sq_sqrt (by positivity)]
  field_simp
  try ring

theorem tabHh_1_0 {s m : ℝ} (h1 : 0 ≤ -m + s) (h2 : 0 ≤ m + s) (h4 : 0 < s) :
    tabHh 1 0 s m = √((m + s) * (-m + s + 1) / (2 * s)) := by
  have a2 : 0 < -m + s + 1 := by linarith
  unfold tabHh
  rw [if_neg (by norm_num), if_pos rfl, if_pos rfl]
  refine sqeq (by positivity) (by positivity) ?_
  rw [Real.sq_sqrt (by positivity)]
  simp only [mul_pow, div_pow]
  rw [Real.sq_sqrt h2, Real.sq_sqrt a2.le, Real.sq_sqrt h4.le, Real.sq_sqrt (show (0:ℝ) ≤ 2 by norm_num)]
  field_simp
  try ring

theorem tabHh_1_1 {s m : ℝ} : tabHh 1 1 s m = 1 := by
  unfold tabHh; simp

theorem tabHh_1_2 {s m : ℝ} (h1 : 0 ≤ -m + s) (h2 : 0 ≤ m + s) (h4 : 0 < s) :
    tabHh 1 2 s m = √((-m + s) * (m + s + 1) / (2 * s)) := by
  have a2 : 0 < m + s + 1 := by linarith
  unfold tabHh
  rw [if_neg (by norm_num), if_pos rfl, if_neg (by norm_num), if_neg (by norm_num)]
  refine sqeq (by positivity) (by positivity) ?_
  rw [Real.sq_sqrt (by positivity)]
  simp only [mul_pow, div_pow]
  rw [Real.sq_sqrt h1, Real.sq_sqrt a2.le, Real.sq_sqrt h4.le, Real.sq_sqrt (show (0:ℝ) ≤ 2 by norm_num)]
  field_simp
  try ring

theorem tabHh_2_0 {s m : ℝ} (h1 : 0 ≤ -m + s) : tabHh 2 0 s m = √((-m + s + 1) * (-m + s + 2) / 2) := by
  have a1 : 0 < -m + s + 1 := by linarith
  have a2 : 0 < -m + s + 2 := by linarith
  unfold tabHh
  rw [if_neg (by norm_num), if_neg (by norm_num), if_pos rfl]
  refine sqeq (by positivity) (by positivity) ?_
  rw [Real.sq_sqrt (by positivity)]
  simp only [mul_pow]
  rw [Real.sq_sqrt a1.le, Real.sq_sqrt a2.le, Real.sq_sqrt (show (0:ℝ) ≤ 2 by norm_num)]
  ring

theorem tabHh_2_1 {s m : ℝ} (h1 : 0 ≤ -m + s) (h2 : 0 ≤ m + s) :
    tabHh 2 1 s m = √((-m + s + 1) * (m + s + 1) / (2 * s + 1)) := by
  have a1 : 0 < -m + s + 1 := by linarith
  have a2 : 0 < m + s + 1 := by linarith
  have a4 : 0 < 2 * s + 1 := by linarith
  have a5 : 0 < s + 1 := by linarith
  unfold tabHh
  rw [if_neg (by norm_num), if_neg (by norm_num), if_neg (by norm_num), if_pos rfl,
    show 2 * s ^ 2 + 3 * s + 1 = (2 * s + 1) * (s + 1) by ring,
    show 4 * s ^ 3 + 8 * s ^ 2 + 5 * s + 1 = (2 * s + 1) ^ 2 * (s + 1) by ring]
  refine sqeq (by positivity) (by positivity) ?_
  rw [Real.sq_sqrt (by positivity)]
  simp only [mul_pow, div_pow]
  rw [Real.sq_sqrt a1.le, Real.sq_sqrt a2.le, Real.sq_sqrt (by positivity), Real.sq_sqrt (by positivity)]
  field_simp

theorem tabHh_2_2 {s m : ℝ} (h1 : 0 ≤ -m + s) (h2 : 0 ≤ m + s) :
    tabHh 2 2 s m = √((m + s + 1) * (m + s + 2) / (2 * ((2 * s + 1) * (s + 1)))) := by
  have a1 : 0 < m + s + 2 := by linarith
  have a2 : 0 < m + s + 1 := by linarith
  have a4 : 0 < 2 * s + 1 := by linarith
  have a5 : 0 < s + 1 := by linarith
  unfold tabHh
  rw [if_neg (by norm_num), if_neg (by norm_num), if_neg (by norm_num), if_neg (by norm_num),
    show 2 * s ^ 2 + 3 * s + 1 = (2 * s + 1) * (s + 1) by ring]
  refine sqeq (by positivity) (by positivity) ?_
  rw [Real.sq_sqrt (by positivity)]
  simp only [mul_pow, div_pow]
  rw [Real.sq_sqrt a1.le, Real.sq_sqrt a2.le, Real.sq_sqrt (show (0:ℝ) ≤ 2 by norm_num), Real.sq_sqrt (by positivity)]
  field_simp
  try ring

theorem tabSm_hh0 {s m : ℝ} (h2 : 0 ≤ m + s) (h3 : 0 ≤ m + s - 1) (h4 : 1 ≤ s) :
    tabSm 0 s m = √((m + s) * (m + s - 1) / (2 * s * (2 * s - 1))) := by
  have a1 : 0 < s := by linarith
  have a2 : 0 < 2 * s - 1 := by linarith
  unfold tabSm; simp only [if_true]
  refine sqeq (by positivity) (by positivity) ?_
  rw [Real.sq_sqrt (by positivity)]
  simp only [mul_pow, div_pow]
  rw [Real.sq_sqrt h3, Real.sq_sqrt h2, Real.sq_sqrt a1.le, Real.sq_sqrt a2.le, Real.sq_sqrt (show (0:ℝ) ≤ 2 by norm_num)]
  field_simp
  try ring

theorem tabSm_hh1 {s m : ℝ} : tabSm 1 s m = tabHh 1 0 s m := by unfold tabSm tabHh; simp

theorem tabSm_hh2 {s m : ℝ} : tabSm 2 s m = tabHh 2 0 s m := by unfold tabSm tabHh; simp

theorem tabDm_0 {s m : ℝ} (h1 : 0 ≤ -m + s) (h2 : 0 ≤ m + s) (h3 : 0 ≤ -m + s - 1) (h4 : 0 ≤ m + s - 1) (h5 : 2 ≤ s) :
    tabDm 0 s m = √((-m + s) * (m + s) * (-m + s - 1) * (m + s - 1) / (4 * ((2 * s - 3) * (s - 1)))) := by
  have a1 : 0 < 2 * s - 3 := by linarith
  have a2 : 0 < s - 1 := by linarith
  unfold tabDm; simp only [if_true]
  rw [show 2 * s ^ 2 - 5 * s + 3 = (2 * s - 3) * (s - 1) by ring]
  refine sqeq (by positivity) (by positivity) ?_
  rw [Real.sq_sqrt (by positivity)]
  simp only [mul_pow, div_pow]
  rw [Real.sq_sqrt h1, Real.sq_sqrt h2, Real.sq_sqrt h3, Real.sq_sqrt h4, Real.sq_sqrt (by positivity)]
  field_simp
  try ring

theorem tabDm_1 {s m : ℝ} (h1 : 0 ≤ -m + s) (h2 : 0 ≤ m + s) (h5 : 1 ≤ s) : tabDm 1 s m = √((-m + s) * (m + s) / (2 * s - 1)) := by
  have a1 : 0 < 2 * s - 1 := by linarith
  unfold tabDm; simp only [if_true, one_ne_zero, if_false]
  refine sqeq (by positivity) (by positivity) ?_
  rw [Real.sq_sqrt (by positivity)]
  simp only [mul_pow, div_pow]
  rw [Real.sq_sqrt h1, Real.sq_sqrt h2, Real.sq_sqrt a1.le]

theorem tabDm_2 {s m : ℝ} : tabDm 2 s m = 1 := by unfold tabDm; simp

end Verif.RdmSmult
