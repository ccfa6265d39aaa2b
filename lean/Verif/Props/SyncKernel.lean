import Verif.Spec.Sync
import Mathlib.Tactic.Linarith
import Mathlib.Tactic.FieldSimp
import Mathlib.Tactic.NormNum
import Mathlib.Tactic.LinearCombination
import Mathlib.Algebra.BigOperators.Field
/-!
# C89-C92: trust radius, trial steps, convergence and CI update of the synchronous LASSCF kernel
-/
namespace Verif.Props
open Verif.SyncKernel Verif.Spec.Sync
open scoped BigOperators

namespace SyncL

theorem nrm_nonneg {n : Nat} (v : Fin n → ℝ) : 0 ≤ nrm v := Real.sqrt_nonneg _

theorem nrm_sq {n : Nat} (v : Fin n → ℝ) : nrm v ^ 2 = ∑ i, v i ^ 2 :=
  Real.sq_sqrt (Finset.sum_nonneg fun i _ => sq_nonneg _)

theorem nrm_le {n : Nat} (v g : Fin n → ℝ) (a : ℝ) (ha : 0 ≤ a) (h : ∀ i, |v i| ≤ a * |g i|) : nrm v ≤ a * nrm g := by
  refine Real.sqrt_le_iff.2 ⟨mul_nonneg ha (nrm_nonneg g), ?_⟩
  rw [mul_pow, nrm_sq, Finset.mul_sum]
  refine Finset.sum_le_sum fun i _ => ?_
  rw [← sq_abs, ← sq_abs (g i), ← mul_pow]
  exact pow_le_pow_left₀ (abs_nonneg _) (h i) 2

theorem le_nrm {n : Nat} (v : Fin n → ℝ) (i : Fin n) : |v i| ≤ nrm v := by
  refine Real.le_sqrt_of_sq_le ?_
  rw [sq_abs]
  exact Finset.single_le_sum (f := fun i => v i ^ 2) (fun i _ => sq_nonneg _) (Finset.mem_univ i)

theorem addShift_zero {n : Nat} (H : Diag n) : addShift H 0 = H := by
  funext i
  simp [addShift]

theorem shifted_of_le {n : Nat} (trust : ℝ) (H : Diag n) (g : Fin n → ℝ) (h : nrm (prec H fun i => -g i) ≤ trust) :
    shifted trust H g = some H := by
  have h0 : getLevelShift trust H g = 0 := by unfold getLevelShift; exact if_pos h
  unfold shifted
  simp only [h0, addShift_zero]
  rw [if_pos (by norm_num)]

end SyncL
open SyncL

/-- **C89** (part) The first step of the microiterations does not exceed the trust radius, and the assertion that checks it holds, if
unstable degrees of freedom are masked and the trust radius is at least π (the default), or if all diagonal elements of the Hessian are
positive. Missing: negative diagonal elements when nothing can be masked (`C89_trust_violated`). -/
theorem C89_trust_partial {n : Nat} (trust : ℝ) (ht : 0 < trust) (h0 g : Fin n → ℝ)
    (h : (Maskable (floorDiag h0) g ∧ Real.pi ≤ trust) ∨ ∀ i, 0 ≤ h0 i) :
    ∃ H, shifted trust (getPrec h0 g) g = some H ∧ nrm (prec H fun i => -g i) ≤ trust := by
  by_cases hm : Maskable (floorDiag h0) g ∧ Real.pi ≤ trust
  · have hb : 0 < nrm g := lt_of_le_of_ne (nrm_nonneg g) (Ne.symm hm.1.2.1)
    have hle : nrm (prec (getPrec h0 g) fun i => -g i) ≤ trust := by
      refine le_trans (nrm_le _ g (Real.pi / nrm g) (by positivity) fun i => ?_) ?_
      · unfold getPrec prec
        simp only [if_pos hm.1]
        by_cases hu : Unstable (floorDiag h0) g i
        · simp only [if_pos hu, abs_zero]; positivity
        · simp only [if_neg hu, abs_div, abs_neg]
          unfold Unstable at hu
          rw [not_lt, abs_div, abs_of_pos hb] at hu
          calc |g i| / |floorDiag h0 i| = (nrm g / |floorDiag h0 i|) / nrm g * |g i| := by field_simp
            _ ≤ Real.pi / nrm g * |g i| := by gcongr
      · rw [div_mul_cancel₀ _ hb.ne']; exact hm.2
    exact ⟨_, shifted_of_le trust _ g hle, hle⟩
  · have hpos : ∀ i, 0 ≤ h0 i := by
      rcases h with h | h
      · exact absurd h hm
      · exact h
    have hH : ∀ i y, getPrec h0 g i = some y → 0 < y := by
      intro i y hy
      have hf : 0 < floorDiag h0 i := by
        unfold floorDiag
        split
        · norm_num
        · rename_i hlt
          rw [abs_of_nonneg (hpos i), not_lt] at hlt
          exact lt_of_lt_of_le (by norm_num) hlt
      unfold getPrec at hy
      split at hy
      · dsimp only at hy
        split at hy
        · simp at hy
        · simp only [Option.some.injEq] at hy; rwa [← hy]
      · simp only [Option.some.injEq] at hy; rwa [← hy]
    generalize getPrec h0 g = H at hH
    by_cases hx : nrm (prec H fun i => -g i) ≤ trust
    · exact ⟨_, shifted_of_le trust _ g hx, hx⟩
    · rw [not_le] at hx
      have hg : 0 < nrm g := by
        by_contra hng
        have hz : nrm g = 0 := le_antisymm (not_lt.1 hng) (nrm_nonneg g)
        have : nrm (prec H fun i => -g i) ≤ 0 * nrm g := nrm_le _ g 0 le_rfl fun i => by
          have : |g i| ≤ 0 := hz ▸ le_nrm g i
          have hgi : g i = 0 := abs_nonpos_iff.1 this
          unfold prec
          cases H i <;> simp [hgi]
        rw [zero_mul] at this
        linarith
      set x := nrm (prec H fun i => -g i) with hxd
      have hx0 : 0 < x := lt_trans ht hx
      have hs : getLevelShift trust H g = nrm g / x + nrm g / trust := by
        unfold getLevelShift; rw [if_neg (by rw [← hxd]; exact not_le.2 hx)]
      set s := nrm g / x + nrm g / trust with hsd
      have hs0 : 0 < s := by positivity
      have hle : nrm (prec (addShift H s) fun i => -g i) ≤ trust := by
        refine le_trans (nrm_le _ g (1 / s) (by positivity) fun i => ?_) ?_
        · unfold prec addShift
          rcases e : H i with _ | y
          · simp only [Option.map_none, abs_zero]; positivity
          · simp only [Option.map_some]
            have hy := hH i y e
            rw [abs_div, abs_neg, abs_of_pos (show 0 < y + s by positivity), div_eq_mul_inv, mul_comm, one_div]
            gcongr
            linarith
        · rw [one_div, inv_mul_le_iff₀ hs0, hsd, add_mul, div_mul_cancel₀ _ ht.ne']
          have : 0 ≤ nrm g / x * trust := by positivity
          linarith
      refine ⟨addShift H s, ?_, hle⟩
      unfold shifted
      rw [hs]
      have : getLevelShift trust (addShift H s) g = 0 := by unfold getLevelShift; exact if_pos hle
      simp only [this]
      rw [if_pos (by norm_num)]

/-- Non-negative diagonal elements: a step that is too long before the shift. -/
example : ∃ (h0 g : Fin 2 → ℝ), (∀ i, 0 ≤ h0 i) ∧ (1 : ℝ) < nrm (fun i => g i / h0 i) := by
  refine ⟨fun _ => 1, fun _ => 3, fun _ => by norm_num, ?_⟩
  refine lt_of_lt_of_le (b := (3 : ℝ)) (by norm_num) ?_
  have := le_nrm (fun _ : Fin 2 => (3 : ℝ) / 1) 0
  norm_num at this ⊢
  exact this

/-- One unstable degree of freedom with a small part of the gradient: it is masked. -/
example : Maskable (n := 2) ![1 / 100, 10] ![3, 4] := by
  have hb : nrm (n := 2) ![3, 4] = 5 := by
    unfold nrm
    rw [Fin.sum_univ_two]
    simp only [Matrix.cons_val_zero, Matrix.cons_val_one]
    rw [show (3 : ℝ) ^ 2 + 4 ^ 2 = 5 ^ 2 by norm_num]
    exact Real.sqrt_sq (by norm_num)
  have h0 : Unstable (n := 2) ![1 / 100, 10] ![3, 4] 0 := by
    unfold Unstable
    rw [hb]
    have := Real.pi_lt_d2
    simp only [Matrix.cons_val_zero]
    norm_num
    linarith
  have h1 : ¬Unstable (n := 2) ![1 / 100, 10] ![3, 4] 1 := by
    unfold Unstable
    rw [hb]
    have := Real.pi_gt_three
    simp only [Matrix.cons_val_one]
    norm_num [abs_of_pos]
    linarith
  refine ⟨⟨1, h1⟩, by rw [hb]; norm_num, ?_⟩
  rw [hb]
  unfold nrm
  rw [Fin.sum_univ_two]
  dsimp only
  rw [if_pos h0, if_neg h1]
  simp only [Matrix.cons_val_zero]
  rw [show (3 : ℝ) ^ 2 + 0 ^ 2 = 3 ^ 2 by norm_num, Real.sqrt_sq (by norm_num)]
  norm_num

/-- **C89** fails with the default trust radius π: gradient (3, 4), diagonal elements −1 and 1/100. Both degrees of freedom are
unstable, so nothing is masked; the shift is too small for the negative element, and the assertion fails. -/
theorem C89_trust_violated : ∃ (h0 g : Fin 2 → ℝ), shifted Real.pi (getPrec h0 g) g = none := by
  refine ⟨![-1, 1 / 100], ![3, 4], ?_⟩
  have hp3 := Real.pi_gt_d2
  have hp4 := Real.pi_lt_d2
  have hpp := Real.pi_pos
  have hb : nrm (n := 2) ![3, 4] = 5 := by
    unfold nrm
    rw [Fin.sum_univ_two]
    simp only [Matrix.cons_val_zero, Matrix.cons_val_one]
    rw [show (3 : ℝ) ^ 2 + 4 ^ 2 = 5 ^ 2 by norm_num]
    exact Real.sqrt_sq (by norm_num)
  have hfl : floorDiag (n := 2) ![-1, 1 / 100] = ![-1, 1 / 100] := by
    funext i
    fin_cases i <;> simp [floorDiag] <;> norm_num
  have hu : ∀ i, Unstable (n := 2) ![-1, 1 / 100] ![3, 4] i := by
    intro i
    unfold Unstable
    rw [hb]
    fin_cases i
    · simp; linarith
    · simp; norm_num; linarith
  have hP : getPrec (n := 2) ![-1, 1 / 100] ![3, 4] = fun i => some ((![-1, 1 / 100] : Fin 2 → ℝ) i) := by
    unfold getPrec
    simp only [hfl]
    rw [if_neg]
    rintro ⟨⟨i, hi⟩, _⟩
    rw [hfl] at hi
    exact hi (hu i)
  rw [hP]
  set H : Diag 2 := fun i => some ((![-1, 1 / 100] : Fin 2 → ℝ) i) with hH
  have hx : 400 ≤ nrm (prec H fun i => -(![3, 4] : Fin 2 → ℝ) i) := by
    have := le_nrm (prec H fun i => -(![3, 4] : Fin 2 → ℝ) i) 1
    simp only [hH, prec, Matrix.cons_val_one] at this
    norm_num at this
    exact this
  have hs : getLevelShift Real.pi H ![3, 4] = 5 / nrm (prec H fun i => -(![3, 4] : Fin 2 → ℝ) i) + 5 / Real.pi := by
    unfold getLevelShift
    rw [if_neg (by linarith), hb]
  set s := getLevelShift Real.pi H ![3, 4] with hsd
  have hs1 : s ≤ 1 / 80 + 5 / 3.14 := by
    rw [hs]
    have h1 : 5 / nrm (prec H fun i => -(![3, 4] : Fin 2 → ℝ) i) ≤ 5 / 400 := by gcongr
    have h2 : 5 / Real.pi ≤ 5 / 3.14 := by gcongr
    linarith
  have hs2 : 1.5 < s := by
    rw [hs]
    have h1 : 0 ≤ 5 / nrm (prec H fun i => -(![3, 4] : Fin 2 → ℝ) i) := by positivity
    have h2 : 5 / 3.15 ≤ 5 / Real.pi := by gcongr
    norm_num at h2 ⊢
    linarith
  have hx' : Real.pi < nrm (prec (addShift H s) fun i => -(![3, 4] : Fin 2 → ℝ) i) := by
    refine lt_of_lt_of_le ?_ (le_nrm _ 0)
    simp only [hH, prec, addShift, Option.map_some, Matrix.cons_val_zero]
    rw [abs_div, abs_neg, abs_of_pos (show (0 : ℝ) < -1 + s by linarith), lt_div_iff₀ (by linarith)]
    norm_num at hs1 ⊢
    nlinarith
  unfold shifted
  rw [← hsd]
  dsimp only
  rw [if_neg]
  unfold getLevelShift
  rw [if_neg (not_le.2 hx'), hb]
  have h1 : 0 ≤ 5 / nrm (prec (addShift H s) fun i => -(![3, 4] : Fin 2 → ℝ) i) := div_nonneg (by norm_num) (nrm_nonneg _)
  have h2 : 5 / 3.15 ≤ 5 / Real.pi := by gcongr
  norm_num at h2 ⊢
  linarith

/-- **C90** After an aborted microiteration the step vector is halved at most twice; the first trial that lowers the energy is taken. -/
theorem C90_first_lower {X S : Type} (trial : X → S) (half : X → X) (lower : S → Bool) (x : X) :
    ∃ k ≤ 2, scaleDown trial half lower x = trial (half^[k] x) ∧ (∀ j < k, lower (trial (half^[j] x)) = false) ∧
      (lower (trial (half^[k] x)) = true ∨ k = 2) := by
  unfold scaleDown
  by_cases h0 : lower (trial x) = true
  · exact ⟨0, by omega, by simp [h0], by omega, Or.inl h0⟩
  · by_cases h1 : lower (trial (half x)) = true
    · refine ⟨1, by omega, by simp [h0, h1], fun j hj => ?_, Or.inl h1⟩
      obtain rfl : j = 0 := by omega
      simpa using h0
    · refine ⟨2, by omega, by simp [h0, h1], fun j hj => ?_, Or.inr rfl⟩
      rcases j with _ | _ | j
      · simpa using h0
      · simpa using h1
      · omega

/-- **C90** (part) If one of the three trial steps lowers the energy, the step that is taken lowers it. Missing: the case that none
does (`C90_energy_violated`). -/
theorem C90_energy_partial {X S : Type} (E : Env X S) (s : S) (x : X) (hu : E.micro s = .unstable x)
    (h : ∃ k ≤ 2, E.energy (E.trial s (E.half^[k] x)) < E.energy s) : E.energy (E.step s) < E.energy s := by
  unfold Env.step
  rw [hu]
  dsimp only
  obtain ⟨k, hk, h1, h2, h3⟩ := C90_first_lower (E.trial s) E.half
    (fun t => open scoped Classical in decide (E.energy t < E.energy s)) x
  rw [h1]
  rcases h3 with h3 | rfl
  · simpa using h3
  · obtain ⟨j, hj, hlt⟩ := h
    rcases Nat.lt_or_ge j 2 with h4 | h4
    · have := h2 j h4
      simp only [decide_eq_false_iff_not] at this
      exact absurd hlt this
    · obtain rfl : j = 2 := by omega
      exact hlt

/-- **C90** fails: if none of the three trial steps lowers the energy, the last one is taken although it raises the energy. -/
theorem C90_energy_violated : ∃ (E : Env ℝ ℝ) (s x : ℝ), E.micro s = .unstable x ∧ E.energy s < E.energy (E.step s) := by
  refine ⟨⟨id, fun _ => 1, fun _ => 1, fun _ => 0, fun _ => .unstable 1, fun s x => s + x, fun x => x / 2, fun s => s ^ 2⟩, 0, 1, rfl, ?_⟩
  simp only [Env.step, scaleDown]
  norm_num

namespace SyncL

theorem macrocycles_spec {X S : Type} (E : Env X S) (tol : ℝ) (minCycle : Nat) (s0 : S) (n it : Nat) (s : S)
    (hs : E.solve s = trajectory E s0 it) :
    ((E.macrocycles tol minCycle it n s).1 = true →
      ∃ k, minCycle ≤ k ∧ it ≤ k ∧ k < it + n ∧ (E.macrocycles tol minCycle it n s).2 = (trajectory E s0 k, k - it + 1) ∧
        E.Conv tol (trajectory E s0 k) ∧ ∀ j, it ≤ j → j < k → minCycle ≤ j → ¬E.Conv tol (trajectory E s0 j)) ∧
    ((E.macrocycles tol minCycle it n s).1 = false →
      (E.macrocycles tol minCycle it n s).2.2 = n ∧
        ∀ j, it ≤ j → j < it + n → minCycle ≤ j → ¬E.Conv tol (trajectory E s0 j)) := by
  induction n generalizing it s with
  | zero =>
    simp only [Env.macrocycles, Bool.false_eq_true, false_imp_iff, true_and, true_imp_iff]
    intro j h1 h2
    omega
  | succ n ih =>
    simp only [Env.macrocycles, hs]
    split
    · rename_i h
      rw [hs] at h
      simp only [true_imp_iff, Bool.true_eq_false, false_imp_iff, and_true]
      exact ⟨it, h.2, le_rfl, by omega, by simp, h.1, by omega⟩
    · rename_i h
      rw [hs] at h
      obtain ⟨h1, h2⟩ := ih (it + 1) (E.step (trajectory E s0 it)) rfl
      refine ⟨fun ht => ?_, fun hf => ?_⟩
      · obtain ⟨k, g1, g2, g3, g4, g5, g6⟩ := h1 ht
        refine ⟨k, g1, by omega, by omega, ?_, g5, fun j hj1 hj2 hj3 hc => ?_⟩
        · rw [g4]
          dsimp only
          rw [show k - (it + 1) + 1 + 1 = k - it + 1 by omega]
        · rcases Nat.eq_or_lt_of_le hj1 with rfl | hlt
          · exact h ⟨hc, hj3⟩
          · exact g6 j hlt hj2 hj3 hc
      · obtain ⟨g1, g2⟩ := h2 hf
        refine ⟨by dsimp only; omega, fun j hj1 hj2 hj3 hc => ?_⟩
        rcases Nat.eq_or_lt_of_le hj1 with rfl | hlt
        · exact h ⟨hc, hj3⟩
        · exact g2 j hlt (by omega) hj3 hc

end SyncL

/-- **C91** If the kernel reports convergence, the wave function it returns is one whose gradient it evaluated and found converged, it
is the first such from macrocycle `min_cycle_macro` on; if not, no macrocycle from that number on met the criterion and all
`max_cycle_macro` were done. -/
theorem C91_converged {X S : Type} (E : Env X S) (tol : ℝ) (minCycle maxCycle : Nat) (s0 : S) :
    ((E.macrocycles tol minCycle 0 maxCycle s0).1 = true →
      ∃ k, minCycle ≤ k ∧ k < maxCycle ∧ (E.macrocycles tol minCycle 0 maxCycle s0).2 = (trajectory E s0 k, k + 1) ∧
        E.Conv tol (trajectory E s0 k) ∧ ∀ j < k, minCycle ≤ j → ¬E.Conv tol (trajectory E s0 j)) ∧
    ((E.macrocycles tol minCycle 0 maxCycle s0).1 = false →
      (E.macrocycles tol minCycle 0 maxCycle s0).2.2 = maxCycle ∧
        ∀ j < maxCycle, minCycle ≤ j → ¬E.Conv tol (trajectory E s0 j)) := by
  obtain ⟨h1, h2⟩ := macrocycles_spec E tol minCycle s0 maxCycle 0 s0 rfl
  refine ⟨fun h => ?_, fun h => ?_⟩
  · obtain ⟨k, g1, _, g3, g4, g5, g6⟩ := h1 h
    exact ⟨k, g1, by omega, by rw [g4]; rfl, g5, fun j hj => g6 j (Nat.zero_le j) hj⟩
  · obtain ⟨g1, g2⟩ := h2 h
    exact ⟨g1, fun j hj => g2 j (Nat.zero_le j) (by omega)⟩

/-- **C91** In a full LASSCF problem (no external rotations, so their gradient is 0) convergence means that both gradients are below
the tolerance. -/
theorem C91_lasscf {X S : Type} (E : Env X S) (tol : ℝ) (minCycle maxCycle : Nat) (s0 : S) (hx : ∀ s, E.gx s = 0)
    (hn : ∀ s, 0 ≤ E.gorb s ∧ 0 ≤ E.gci s) (h : (E.macrocycles tol minCycle 0 maxCycle s0).1 = true) :
    E.gorb (E.macrocycles tol minCycle 0 maxCycle s0).2.1 < tol ∧ E.gci (E.macrocycles tol minCycle 0 maxCycle s0).2.1 < tol := by
  obtain ⟨k, _, _, h3, h4, _⟩ := (C91_converged E tol minCycle maxCycle s0).1 h
  rw [h3]
  rcases h4 with h4 | h4
  · exact h4
  · rw [hx] at h4
    have := hn (trajectory E s0 k)
    linarith

/-- A calculation that converges in its third macrocycle: the gradient halves in every step. -/
example : ∃ E : Env ℝ ℝ, (∀ s, E.gx s = 0) ∧ (∀ s, 0 ≤ E.gorb s ∧ 0 ≤ E.gci s) ∧ (E.macrocycles 0.3 0 0 5 1).1 = true ∧
    (E.macrocycles 0.3 0 0 5 1).2.2 = 3 := by
  refine ⟨⟨id, fun s => |s|, fun _ => 0, fun _ => 0, fun s => .done (s / 2), fun s _ => s, id, id⟩, fun _ => rfl,
    fun s => ⟨abs_nonneg s, le_rfl⟩, ?_, ?_⟩
  · simp only [Env.macrocycles, Env.Conv, Env.step]
    norm_num [abs_of_pos]
  · simp only [Env.macrocycles, Env.Conv, Env.step]
    norm_num [abs_of_pos]

/-- **C92** A step along any direction keeps a normalized CI vector normalized: exactly if the step is longer than 1e-8, and within the
tolerance of the assertion otherwise. -/
theorem C92_normalized {n : Nat} (c dc : Fin n → ℝ) (hc : ∑ i, c i ^ 2 = 1) :
    |nrm (updateCi c dc) - 1| ≤ 1e-8 + 1e-5 ∧
    (1e-8 < nrm (fun i => dc i - c i * ∑ j, c j * dc j) → nrm (updateCi c dc) = 1) := by
  set o := ∑ j, c j * dc j with ho
  set d : Fin n → ℝ := fun i => dc i - c i * o with hd
  have horth : ∑ i, c i * d i = 0 := by
    have : ∑ i, c i * d i = ∑ i, c i * dc i - (∑ i, c i ^ 2) * o := by
      rw [Finset.sum_mul, ← Finset.sum_sub_distrib]
      exact Finset.sum_congr rfl fun i _ => by rw [hd]; ring
    rw [this, hc, ← ho]; ring
  have key : ∀ a b : ℝ, ∑ i, (a * c i + b * d i) ^ 2 = a ^ 2 + b ^ 2 * nrm d ^ 2 := by
    intro a b
    rw [nrm_sq]
    have : ∑ i, (a * c i + b * d i) ^ 2 = a ^ 2 * ∑ i, c i ^ 2 + 2 * a * b * ∑ i, c i * d i + b ^ 2 * ∑ i, d i ^ 2 := by
      rw [Finset.mul_sum, Finset.mul_sum, Finset.mul_sum, ← Finset.sum_add_distrib, ← Finset.sum_add_distrib]
      exact Finset.sum_congr rfl fun i _ => by ring
    rw [this, hc, horth]; ring
  have hphi : 0 ≤ nrm d := nrm_nonneg d
  have hbig : 1e-8 < nrm d → nrm (updateCi c dc) = 1 := by
    intro h
    have h0 : nrm d ≠ 0 := by
      have : (0 : ℝ) < 1e-8 := by norm_num
      linarith
    have : nrm (updateCi c dc) = Real.sqrt (∑ i, (Real.cos (nrm d) * c i + (Real.sin (nrm d) / nrm d) * d i) ^ 2) := by
      unfold updateCi
      simp only [← ho, ← hd, abs_of_nonneg hphi]
      rw [if_pos h]
      rfl
    rw [this, key, div_pow, div_mul_cancel₀ _ (pow_ne_zero 2 h0), Real.cos_sq_add_sin_sq, Real.sqrt_one]
  refine ⟨?_, hbig⟩
  by_cases h : 1e-8 < nrm d
  · rw [hbig h]; norm_num
  · have : nrm (updateCi c dc) = Real.sqrt (∑ i, (Real.cos (nrm d) * c i + 1 * d i) ^ 2) := by
      unfold updateCi
      simp only [← ho, ← hd, abs_of_nonneg hphi]
      rw [if_neg h]
      rfl
    rw [this, key, one_pow, one_mul]
    rw [not_lt] at h
    have h1 : 1 ≤ Real.cos (nrm d) ^ 2 + nrm d ^ 2 := by
      have h2 := Real.sin_sq_add_cos_sq (nrm d)
      have h3 : Real.sin (nrm d) ^ 2 ≤ nrm d ^ 2 := by
        rw [← sq_abs, ← sq_abs (nrm d)]
        exact pow_le_pow_left₀ (abs_nonneg _) Real.abs_sin_le_abs 2
      linarith
    have h2 : Real.cos (nrm d) ^ 2 + nrm d ^ 2 ≤ (1 + 1e-8) ^ 2 := by
      have h3 := Real.cos_sq_le_one (nrm d)
      have h4 : nrm d ^ 2 ≤ (1e-8) ^ 2 := pow_le_pow_left₀ hphi h 2
      norm_num at h4 ⊢
      linarith
    have g1 : 1 ≤ Real.sqrt (Real.cos (nrm d) ^ 2 + nrm d ^ 2) := Real.one_le_sqrt.2 h1
    have g2 : Real.sqrt (Real.cos (nrm d) ^ 2 + nrm d ^ 2) ≤ 1 + 1e-8 := Real.sqrt_le_iff.2 ⟨by norm_num, h2⟩
    rw [abs_of_nonneg (by linarith)]
    norm_num at g2 ⊢
    linarith

/-- **C92** The CI vectors of frozen fragments do not change: the CI solver is not called for them, and a zero step (C87_unpack) leaves
a vector as it is. -/
theorem C92_frozen {V : Type} (frozen : List Nat) (kernel : Nat → V → V) (ci : List V) {n : Nat} (c : Fin n → ℝ) :
    (ciCycle frozen kernel ci).length = ci.length ∧ (∀ i ∈ frozen, (ciCycle frozen kernel ci)[i]? = ci[i]?) ∧
    (∀ i, i ∉ frozen → (ciCycle frozen kernel ci)[i]? = ci[i]?.map (kernel i)) ∧ updateCi c (fun _ => 0) = c := by
  refine ⟨by simp [ciCycle], fun i hi => ?_, fun i hi => ?_, ?_⟩
  · simp only [ciCycle, List.getElem?_map, List.getElem?_zipIdx]
    cases ci[i]? <;> simp [hi]
  · simp only [ciCycle, List.getElem?_map, List.getElem?_zipIdx]
    cases ci[i]? <;> simp [hi]
  · funext i
    simp [updateCi, nrm]

/-- A normalized CI vector and a step. -/
example : ∑ i, (![3 / 5, 4 / 5] : Fin 2 → ℝ) i ^ 2 = 1 ∧
    1e-8 < nrm (fun i => (![1, 0] : Fin 2 → ℝ) i - (![3 / 5, 4 / 5] : Fin 2 → ℝ) i * ∑ j, (![3 / 5, 4 / 5] : Fin 2 → ℝ) j * (![1, 0] : Fin 2 → ℝ) j) := by
  constructor
  · rw [Fin.sum_univ_two]; norm_num
  · refine lt_of_lt_of_le ?_ (le_nrm _ 0)
    rw [Fin.sum_univ_two]
    norm_num [abs_of_pos]

end Verif.Props
