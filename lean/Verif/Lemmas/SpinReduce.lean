import Verif.Model.RdmSmult
import Mathlib.Algebra.BigOperators.Ring.Finset
import Mathlib.Tactic.Ring
import Mathlib.Tactic.FieldSimp
import Mathlib.Tactic.LinearCombination
import Mathlib.Tactic.Linarith
/-! Combinations of table entries that a rotation of spin multiplies with a number. -/
namespace Verif.SpinReduce
open Verif.RdmSmult Finset

/-- Projections that exist for the multiplicity. -/
structure Proj (s m : ℤ) : Prop where
  lo : -(s - 1) ≤ m
  hi : m ≤ s - 1
  par : (s - 1 - m) % 2 = 0

theorem half_eq {a b : ℤ} : ((a : ℝ) - 1) / 2 = (b : ℝ) / 2 ↔ b = a - 1 := by
  constructor
  · intro h
    have : (b : ℝ) = ((a - 1 : ℤ) : ℝ) := by push_cast; linarith
    exact_mod_cast this
  · rintro rfl; push_cast; rfl

theorem phh_sum (d : T3) {sb : ℤ} {s : ℕ} (hs : s = 0 ∨ s = 1) {sk m : ℤ} (hk : Proj sk m) (hb : Proj sb (m + (if s = 0 then -1 else 1)))
    (r p q : ℕ) : ∑ t ∈ range 2, mdownPhh d sb s sk m t r p q = (∑ t ∈ range 2, d t r p q) * scaleH sb s sk m := by
  obtain ⟨k1, k2, k3⟩ := hk
  obtain ⟨b1, b2, b3⟩ := hb
  rw [sum_range_succ, sum_range_one, sum_range_succ, sum_range_one]
  unfold mdownPhh
  generalize scaleH sb s sk m = κ
  have r1 : ((sk : ℝ) - 1) / 2 = 1 / 2 → sk = 2 := by
    intro h
    have : (sk : ℝ) = ((2 : ℤ) : ℝ) := by push_cast; linarith
    exact_mod_cast this
  have r0 : ((sk : ℝ) - 1) / 2 = 0 → sk = 1 := by
    intro h
    have : (sk : ℝ) = ((1 : ℤ) : ℝ) := by push_cast; linarith
    exact_mod_cast this
  generalize hS : ((sk : ℝ) - 1) / 2 = S
  generalize hMM : (m : ℝ) / 2 = M
  rw [hS] at r1 r0
  split_ifs with c1 c2 c3 c4
  · unfold phh0 tr3
    dsimp only
    by_cases e : M = S
    · simp only [if_pos e, if_true, one_ne_zero, if_false]; ring
    · have hne : 2 * S - 1 ≠ 0 := by
        intro h0
        have := r1 (by linarith)
        apply e
        rw [← hS, ← hMM]
        exact (half_eq.2 (by rw [c1.2] at b1; simp at b1; omega)).symm
      simp only [if_neg e, if_true, one_ne_zero, if_false]
      have hne' : -1 + S * 2 ≠ 0 := by intro h; exact hne (by linarith)
      field_simp
      ring_nf
      field_simp
      ring
  · unfold phh1 tr3
    dsimp only
    by_cases e : M = S - 1
    · simp only [if_pos e, if_true, one_ne_zero, if_false]; ring
    · have hne : 2 * S - 1 ≠ 0 := by
        intro h0
        have := r1 (by linarith)
        apply e
        rw [← hS, ← hMM]
        have : m = sk - 3 := by rw [c2.2] at b2; simp at b2; omega
        rw [this]; push_cast; ring
      simp only [if_neg e, if_true, one_ne_zero, if_false]
      field_simp; ring
  · unfold phh2 tr3
    dsimp only
    by_cases e : M = S
    · simp only [if_pos e, if_true, one_ne_zero, if_false]; ring
    · have hne : S ≠ 0 := by
        intro h0
        have := r0 h0
        apply e
        rw [← hS, ← hMM]
        exact (half_eq.2 (by omega)).symm
      simp only [if_neg e, if_true, one_ne_zero, if_false]
      field_simp; ring
  · unfold phh3 tr3
    dsimp only
    by_cases e : M = S
    · simp only [if_pos e, if_true, one_ne_zero, if_false]; ring
    · have hne : S ≠ 0 := by
        intro h0
        have := r0 h0
        apply e
        rw [← hS, ← hMM]
        exact (half_eq.2 (by omega)).symm
      simp only [if_neg e, if_true, one_ne_zero, if_false]
      field_simp; ring
  · ring

/-- The factor of the antisymmetric combinations. -/
noncomputable def mu (sb sk m : ℤ) : ℝ :=
  if sb ≠ sk then 1 else (m : ℝ) / (if (((sk - 1 : ℤ)) : ℝ) = 0 then (2 : ℝ) ^ (-1022 : ℤ) else ((sk - 1 : ℤ) : ℝ))

theorem mu_self {s m : ℤ} (h : s ≠ 1) : mu s s m = (m : ℝ) / ((s : ℝ) - 1) := by
  unfold mu
  rw [if_neg (by simp), if_neg]
  · push_cast; rfl
  · intro h0
    have : s - 1 = 0 := by exact_mod_cast h0
    omega

theorem mu_one : mu 1 1 0 = 0 := by unfold mu; simp

theorem hh_other (d : ℕ → ℕ → ℝ) (sb : ℤ) {s : ℕ} (hs : s ≠ 1) (sk m : ℤ) (p q : ℕ) :
    mdownHh d sb s sk m p q = d p q * scaleHh sb s sk m := by
  unfold mdownHh
  rw [if_neg (by simp [hs])]

theorem hh_sym (d : ℕ → ℕ → ℝ) {sb sk m : ℤ} (hk : Proj sk m) (p q : ℕ) :
    mdownHh d sb 1 sk m p q + mdownHh d sb 1 sk m q p = (d p q + d q p) * scaleHh sb 1 sk m := by
  unfold mdownHh
  generalize scaleHh sb 1 sk m = κ
  split_ifs with h
  · unfold hh0
    split_ifs with e
    · ring
    · have hS : ((sk : ℝ) - 1) / 2 ≠ 0 := by
        intro h0
        apply e
        have h1 : (sk : ℝ) = ((1 : ℤ) : ℝ) := by push_cast; linarith
        have h2 : sk = 1 := by exact_mod_cast h1
        subst h2
        have := hk.lo; have := hk.hi
        have : m = 0 := by omega
        subst this
        simp
      generalize ((sk : ℝ) - 1) / 2 = S at *
      field_simp; ring
  · ring

theorem hh_anti (d : ℕ → ℕ → ℝ) {sb sk m : ℤ} (hk : Proj sk m) (p q : ℕ) (h1 : sb = 1 → sk = 1 → mdownHh d sb 1 sk m p q = mdownHh d sb 1 sk m q p) :
    mdownHh d sb 1 sk m p q - mdownHh d sb 1 sk m q p = (d p q - d q p) * scaleHh sb 1 sk m * mu sb sk m := by
  by_cases h : sb = sk
  · subst h
    by_cases h2 : sb = 1
    · subst h2
      have := hk.lo; have := hk.hi
      have : m = 0 := by omega
      subst this
      rw [mu_one, h1 rfl rfl]; ring
    · have hS : ((sb : ℝ) - 1) ≠ 0 := by
        intro h0
        apply h2
        have h1 : (sb : ℝ) = ((1 : ℤ) : ℝ) := by push_cast; linarith
        exact_mod_cast h1
      rw [mu_self h2]
      unfold mdownHh
      rw [if_pos (by simp)]
      generalize scaleHh sb 1 sb m = κ
      unfold hh0
      split_ifs with e
      · have : (m : ℝ) = (sb : ℝ) - 1 := by linarith
        rw [this, div_self hS]; ring
      · generalize (sb : ℝ) - 1 = S at *
        field_simp; ring
  · unfold mdownHh mu
    rw [if_neg (show ¬ ((sb - sk = 0) ∧ (1:ℕ) = 1) by omega), if_pos h]; ring

theorem dm1_ch (d : T2) {sb sk m : ℤ} (hk : Proj sk m) (p q : ℕ) :
    mdownDm1 d sb sk m 0 p q + mdownDm1 d sb sk m 1 p q = (d 0 p q + d 1 p q) * scaleDm sb sk m := by
  unfold mdownDm1
  generalize scaleDm sb sk m = κ
  split_ifs with h
  · have : sb = sk := by rw [neg_eq_zero, abs_eq_zero] at h; omega
    subst this
    rw [max_self]
    unfold dm10
    by_cases e : (m : ℝ) / 2 = ((sb : ℝ) - 1) / 2
    · simp only [if_pos e, if_true, one_ne_zero, if_false]; ring
    by_cases e' : (m : ℝ) / 2 = -(((sb : ℝ) - 1) / 2)
    · simp only [if_neg e, if_pos e', if_true, one_ne_zero, if_false]; ring
    have hS : ((sb : ℝ) - 1) / 2 ≠ 0 := by
      intro h0
      have h1 : (sb : ℝ) = ((1 : ℤ) : ℝ) := by push_cast; linarith
      have h2 : sb = 1 := by exact_mod_cast h1
      apply e
      subst h2
      have := hk.lo; have := hk.hi
      have : m = 0 := by omega
      subst this
      simp
    simp only [if_neg e, if_neg e', if_true, one_ne_zero, if_false]
    generalize ((sb : ℝ) - 1) / 2 = S at *
    field_simp; ring
  · ring

theorem dm1_sp (d : T2) {sb sk m : ℤ} (hk : Proj sk m) (p q : ℕ) (h1 : sb = 1 → sk = 1 → mdownDm1 d sb sk m 0 p q = mdownDm1 d sb sk m 1 p q) :
    mdownDm1 d sb sk m 0 p q - mdownDm1 d sb sk m 1 p q = (d 0 p q - d 1 p q) * scaleDm sb sk m * mu sb sk m := by
  by_cases h : sb = sk
  · subst h
    by_cases h2 : sb = 1
    · subst h2
      have := hk.lo; have := hk.hi
      have : m = 0 := by omega
      subst this
      rw [mu_one, h1 rfl rfl]; ring
    · have hS : ((sb : ℝ) - 1) ≠ 0 := by
        intro h0
        apply h2
        have h1 : (sb : ℝ) = ((1 : ℤ) : ℝ) := by push_cast; linarith
        exact_mod_cast h1
      rw [mu_self h2]
      unfold mdownDm1
      rw [if_pos (by simp), max_self]
      generalize scaleDm sb sb m = κ
      unfold dm10
      by_cases e : (m : ℝ) / 2 = ((sb : ℝ) - 1) / 2
      · simp only [if_pos e, if_true, one_ne_zero, if_false]
        have : (m : ℝ) = (sb : ℝ) - 1 := by linarith
        rw [this, div_self hS]; ring
      by_cases e' : (m : ℝ) / 2 = -(((sb : ℝ) - 1) / 2)
      · simp only [if_neg e, if_pos e', if_true, one_ne_zero, if_false]
        have : (m : ℝ) = -((sb : ℝ) - 1) := by linarith
        rw [this, neg_div, div_self hS]; ring
      simp only [if_neg e, if_neg e', if_true, one_ne_zero, if_false]
      generalize (sb : ℝ) - 1 = S at *
      field_simp; ring
  · unfold mdownDm1 mu
    rw [if_neg (by rw [neg_eq_zero, abs_eq_zero]; omega), if_pos h]; ring

theorem sum4 (f : ℕ → ℝ) : ∑ st ∈ range 4, f st = f 0 + f 1 + f 2 + f 3 := by
  rw [sum_range_succ, sum_range_succ, sum_range_succ, sum_range_one]

theorem dm20_sum (d : T4) {s m : ℝ} (p q r u : ℕ) (ha : d 0 p u r q = - d 0 p q r u) (hb : d 3 p u r q = - d 3 p q r u)
    (hs : m ≠ s - 1 → s - 1 ≠ 0) : ∑ st ∈ range 4, dm20 d s m st p q r u = ∑ st ∈ range 4, d st p q r u := by
  rw [sum4, sum4]
  unfold dm20 tr4
  dsimp only
  by_cases e : m = s - 1
  · simp [if_pos e]
  by_cases e' : m = 1 - s
  · simp [if_neg e, if_pos e', ha, hb]
    ring
  have h1 := hs e
  simp [if_neg e, if_neg e', ha, hb]
  field_simp; ring

theorem dm20_ss (d : T4) {s m : ℝ} (p r : ℕ) (ha : d 0 p r r p = - d 0 p p r r) (hb : d 3 p r r p = - d 3 p p r r)
    (hs : m ≠ s - 1 → s - 1 ≠ 0) :
    (dm20 d s m 0 p p r r + dm20 d s m 3 p p r r - dm20 d s m 1 p p r r - dm20 d s m 2 p p r r) / 4 -
      (dm20 d s m 1 p r r p + dm20 d s m 2 p r r p) / 2 =
    (d 0 p p r r + d 3 p p r r - d 1 p p r r - d 2 p p r r) / 4 - (d 1 p r r p + d 2 p r r p) / 2 := by
  unfold dm20 tr4
  dsimp only
  by_cases e : m = s - 1
  · simp [if_pos e]
  by_cases e' : m = 1 - s
  · simp [if_neg e, if_pos e', ha, hb]
    ring
  have h1 := hs e
  simp [if_neg e, if_neg e', ha, hb]
  field_simp; ring

theorem dm21_sum (d : T4) {s m : ℝ} (p q r u : ℕ) (ha : d 0 p u r q = - d 0 p q r u) (hb : d 3 p u r q = - d 3 p q r u)
    (hs : m ≠ s → m ≠ -s → s ≠ 0 ∧ 2 * s - 1 ≠ 0) : ∑ st ∈ range 4, dm21 d s m st p q r u = ∑ st ∈ range 4, d st p q r u := by
  rw [sum4, sum4]
  unfold dm21 tr4
  dsimp only
  by_cases e : m = s
  · simp [if_pos e]
  by_cases e' : m = -s
  · simp [if_neg e, if_pos e']
    ring
  obtain ⟨h1, h2⟩ := hs e e'
  simp only [if_neg e, if_neg e', if_true, one_ne_zero, if_false, OfNat.ofNat_ne_zero, OfNat.ofNat_ne_one, show ¬ (3 : ℕ) = 2 by decide, ha, hb]
  have h3 : s * (2 * s - 1) ≠ 0 := mul_ne_zero h1 h2
  generalize hW : s * (2 * s - 1) = W at *
  generalize d 0 p q r u = A0
  generalize d 1 p q r u = A1
  generalize d 2 p q r u = A2
  generalize d 3 p q r u = A3
  generalize d 1 p u r q = B1
  generalize d 2 p u r q = B2
  field_simp
  rw [← hW]; ring

theorem dm21_ss (d : T4) {s m : ℝ} (p r : ℕ) (ha : d 0 p r r p = - d 0 p p r r) (hb : d 3 p r r p = - d 3 p p r r)
    (hs : m ≠ s → m ≠ -s → s ≠ 0 ∧ 2 * s - 1 ≠ 0) :
    (dm21 d s m 0 p p r r + dm21 d s m 3 p p r r - dm21 d s m 1 p p r r - dm21 d s m 2 p p r r) / 4 -
      (dm21 d s m 1 p r r p + dm21 d s m 2 p r r p) / 2 =
    (d 0 p p r r + d 3 p p r r - d 1 p p r r - d 2 p p r r) / 4 - (d 1 p r r p + d 2 p r r p) / 2 := by
  unfold dm21 tr4
  dsimp only
  by_cases e : m = s
  · simp [if_pos e]
  by_cases e' : m = -s
  · simp [if_neg e, if_pos e']
    ring
  obtain ⟨h1, h2⟩ := hs e e'
  simp only [if_neg e, if_neg e', if_true, one_ne_zero, if_false, OfNat.ofNat_ne_zero, OfNat.ofNat_ne_one, show ¬ (3 : ℕ) = 2 by decide, ha, hb]
  have h3 : s * (2 * s - 1) ≠ 0 := mul_ne_zero h1 h2
  generalize hW : s * (2 * s - 1) = W at *
  generalize d 0 p p r r = A0
  generalize d 1 p p r r = A1
  generalize d 2 p p r r = A2
  generalize d 3 p p r r = A3
  generalize d 1 p r r p = B1
  generalize d 2 p r r p = B2
  field_simp
  rw [← hW]; ring

theorem dm2_den {sb sk m : ℤ} (hk : Proj sk m) (hb : Proj sb m) :
    (-|sb - sk| = -2 → (m : ℝ) / 2 ≠ ((max sb sk : ℤ) - 1 : ℝ) / 2 - 1 → ((max sb sk : ℤ) - 1 : ℝ) / 2 - 1 ≠ 0) ∧
    (-|sb - sk| = 0 → (m : ℝ) / 2 ≠ ((max sb sk : ℤ) - 1 : ℝ) / 2 → (m : ℝ) / 2 ≠ -(((max sb sk : ℤ) - 1 : ℝ) / 2) →
      ((max sb sk : ℤ) - 1 : ℝ) / 2 ≠ 0 ∧ 2 * (((max sb sk : ℤ) - 1 : ℝ) / 2) - 1 ≠ 0) := by
  obtain ⟨k1, k2, k3⟩ := hk
  obtain ⟨b1, b2, b3⟩ := hb
  constructor
  · intro h hm h0
    apply hm
    have h1 : ((max sb sk : ℤ) : ℝ) = ((3 : ℤ) : ℝ) := by push_cast; push_cast at h0; linarith
    have h2 : max sb sk = 3 := by exact_mod_cast h1
    have h3 : m = 0 := by
      rcases abs_cases (sb - sk) with h4 | h4 <;> rcases max_cases sb sk with h5 | h5 <;> omega
    rw [h3, h0]; simp
  · intro h hm hm'
    have e : sb = sk := by rw [neg_eq_zero, abs_eq_zero] at h; omega
    subst e
    rw [max_self] at *
    constructor
    · intro h0
      have h1 : (sb : ℝ) = ((1 : ℤ) : ℝ) := by push_cast; linarith
      have h2 : sb = 1 := by exact_mod_cast h1
      have h3 : m = 0 := by omega
      apply hm; rw [h3, h2]; simp
    · intro h0
      have h1 : (sb : ℝ) = ((2 : ℤ) : ℝ) := by push_cast; linarith
      have h2 : sb = 2 := by exact_mod_cast h1
      have h3 : m = 1 ∨ m = -1 := by omega
      rcases h3 with h3 | h3
      · apply hm; rw [h3, h2]; norm_num
      · apply hm'; rw [h3, h2]; norm_num

theorem dm2_sum (d : T4) {sb sk m : ℤ} (hk : Proj sk m) (hb : Proj sb m) (p q r u : ℕ) (h0 : d 0 p u r q = - d 0 p q r u)
    (h3 : d 3 p u r q = - d 3 p q r u) :
    ∑ st ∈ range 4, mdownDm2 d sb sk m st p q r u = (∑ st ∈ range 4, d st p q r u) * scaleDm sb sk m := by
  obtain ⟨e1, e2⟩ := dm2_den hk hb
  unfold mdownDm2
  rw [sum_mul]
  split_ifs with c1 c2
  · exact dm20_sum _ p q r u (by rw [h0]; ring) (by rw [h3]; ring) (e1 c1)
  · exact dm21_sum _ p q r u (by rw [h0]; ring) (by rw [h3]; ring) (e2 c2)
  · rfl

theorem dm2_ss (d : T4) {sb sk m : ℤ} (hk : Proj sk m) (hb : Proj sb m) (p r : ℕ) (h0 : d 0 p r r p = - d 0 p p r r)
    (h3 : d 3 p r r p = - d 3 p p r r) :
    (mdownDm2 d sb sk m 0 p p r r + mdownDm2 d sb sk m 3 p p r r - mdownDm2 d sb sk m 1 p p r r - mdownDm2 d sb sk m 2 p p r r) / 4 -
      (mdownDm2 d sb sk m 1 p r r p + mdownDm2 d sb sk m 2 p r r p) / 2 =
    ((d 0 p p r r + d 3 p p r r - d 1 p p r r - d 2 p p r r) / 4 - (d 1 p r r p + d 2 p r r p) / 2) * scaleDm sb sk m := by
  obtain ⟨e1, e2⟩ := dm2_den hk hb
  unfold mdownDm2
  split_ifs with c1 c2
  · rw [dm20_ss _ p r (by rw [h0]; ring) (by rw [h3]; ring) (e1 c1)]; ring
  · rw [dm21_ss _ p r (by rw [h0]; ring) (by rw [h3]; ring) (e2 c2)]; ring
  · ring

end Verif.SpinReduce
