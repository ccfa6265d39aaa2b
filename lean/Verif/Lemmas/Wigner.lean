import Mathlib.Analysis.Real.Sqrt
import Mathlib.Algebra.BigOperators.Intervals
import Mathlib.Algebra.BigOperators.Field
import Mathlib.Tactic.Ring
import Mathlib.Tactic.LinearCombination
import Mathlib.Tactic.FieldSimp
import Mathlib.Tactic.Positivity
import Mathlib.Tactic.Linarith
/-!
# Matrix elements between two spin multiplets

`F i j` stands for the matrix element of one operator between state `i` of a bra multiplet of spin `S'/2` and state `j` of a ket
multiplet of spin `S/2`, where state 0 is the one with the highest projection and `i` counts the lowerings. `Dn F G` and `Up F G`
say that `G` are the matrix elements of the commutators of the spin lowering and raising operators with that operator.
-/
namespace Verif.Wigner

/-- Factor of the ladder operators. -/
noncomputable def c (S j : ℕ) : ℝ := √(((j : ℝ) + 1) * ((S : ℝ) - j))

structure Dn (S' S : ℕ) (F G : ℕ → ℕ → ℝ) : Prop where
  zero : ∀ j, -(c S j * F 0 (j + 1)) = G 0 j
  succ : ∀ i j, c S' i * F i j - c S j * F (i + 1) (j + 1) = G (i + 1) j

structure Up (S' S : ℕ) (F G : ℕ → ℕ → ℝ) : Prop where
  zero : ∀ i, c S' i * F (i + 1) 0 = G i 0
  succ : ∀ i j, c S' i * F (i + 1) (j + 1) - c S j * F i j = G i (j + 1)

/-- The matrix elements of an operator that commutes with the lowering operator. -/
abbrev Dn0 (S' S : ℕ) (F : ℕ → ℕ → ℝ) : Prop := Dn S' S F fun _ _ => 0
abbrev Up0 (S' S : ℕ) (F : ℕ → ℕ → ℝ) : Prop := Up S' S F fun _ _ => 0

theorem Dn.swap {S' S : ℕ} {F G : ℕ → ℕ → ℝ} (h : Dn S' S F G) : Up S S' (fun i j => F j i) (fun i j => -G j i) :=
  ⟨fun i => by linarith [h.zero i], fun i j => by linarith [h.succ j i]⟩

theorem Up.swap {S' S : ℕ} {F G : ℕ → ℕ → ℝ} (h : Up S' S F G) : Dn S S' (fun i j => F j i) (fun i j => -G j i) :=
  ⟨fun i => by linarith [h.zero i], fun i j => by linarith [h.succ j i]⟩

theorem Dn0.swap {S' S : ℕ} {F : ℕ → ℕ → ℝ} (h : Dn0 S' S F) : Up0 S S' (fun i j => F j i) := by
  simpa using Dn.swap h

theorem Up0.swap {S' S : ℕ} {F : ℕ → ℕ → ℝ} (h : Up0 S' S F) : Dn0 S S' (fun i j => F j i) := by
  simpa using Up.swap h

theorem c_sq {S j : ℕ} (h : j ≤ S) : c S j * c S j = ((j : ℝ) + 1) * ((S : ℝ) - j) := by
  have : (j : ℝ) ≤ S := by exact_mod_cast h
  exact Real.mul_self_sqrt (mul_nonneg (by positivity) (by linarith))

theorem c_pos {S j : ℕ} (h : j < S) : 0 < c S j := by
  have : (j : ℝ) < S := by exact_mod_cast h
  exact Real.sqrt_pos.2 (mul_pos (by positivity) (by linarith))

theorem c_self (S : ℕ) : c S S = 0 := by simp [c]

/-- An operator that commutes with the lowering operator has no matrix elements that gain more projection than the spins allow. -/
theorem Dn0.van {S' S : ℕ} {F : ℕ → ℕ → ℝ} (h : Dn0 S' S F) (i j : ℕ) (hij : i < j) (hj : j ≤ S) : F i j = 0 := by
  induction i generalizing j with
  | zero =>
    obtain ⟨k, rfl⟩ := Nat.exists_eq_succ_of_ne_zero (Nat.pos_iff_ne_zero.1 hij)
    have := h.zero k
    have hc := c_pos (S := S) (j := k) (by omega)
    have : c S k * F 0 (k + 1) = 0 := by linarith
    exact (mul_eq_zero.1 this).resolve_left hc.ne'
  | succ i ih =>
    obtain ⟨k, rfl⟩ := Nat.exists_eq_succ_of_ne_zero (n := j) (by omega)
    have := h.succ i k
    rw [ih k (by omega) (by omega)] at this
    have hc := c_pos (S := S) (j := k) (by omega)
    have : c S k * F (i + 1) (k + 1) = 0 := by linarith
    exact (mul_eq_zero.1 this).resolve_left hc.ne'

theorem Up0.van {S' S : ℕ} {F : ℕ → ℕ → ℝ} (h : Up0 S' S F) (i j : ℕ) (hij : j < i) (hi : i ≤ S') : F i j = 0 :=
  Dn0.van h.swap j i hij hi

/-! ### Closed forms -/

noncomputable def asc : ℕ → ℝ → ℝ
  | 0, _ => 1
  | d + 1, j => asc d j * ((j + 1 + d) / (1 + d))

noncomputable def desc : ℕ → ℝ → ℝ → ℝ
  | 0, _, _ => 1
  | e + 1, S, j => desc e S j * ((S - j - e) / (S - e))

theorem asc_pos (d : ℕ) {j : ℝ} (h : 0 ≤ j) : 0 < asc d j := by
  induction d with
  | zero => simp [asc]
  | succ d ih => unfold asc; positivity

theorem desc_nonneg (e : ℕ) {S j : ℝ} (hj : 0 ≤ j) (h : j + e ≤ S) : 0 ≤ desc e S j := by
  induction e with
  | zero => simp [desc]
  | succ e ih =>
    push_cast at h
    unfold desc
    exact mul_nonneg (ih (by linarith)) (div_nonneg (by linarith) (by linarith))

theorem asc_succ (d : ℕ) {j : ℝ} : asc d (j + 1) * (j + 1) = asc d j * (j + 1 + d) := by
  induction d with
  | zero => simp [asc]
  | succ d ih =>
    have h1 : (1 : ℝ) + d ≠ 0 := by positivity
    unfold asc
    push_cast
    field_simp
    linear_combination (j + 1 + 1 + d) * ih

theorem desc_succ (e : ℕ) {S j : ℝ} : desc e S (j + 1) * (S - j) = desc e S j * (S - j - e) := by
  induction e with
  | zero => simp [desc]
  | succ e ih =>
    unfold desc
    push_cast
    linear_combination ((S - (j + 1) - e) / (S - e)) * ih

theorem asc_zero (d : ℕ) : asc d 0 = 1 := by
  induction d with
  | zero => rfl
  | succ d ih =>
    have h1 : (1 : ℝ) + d ≠ 0 := by positivity
    unfold asc
    rw [ih, zero_add, div_self h1, mul_one]

theorem desc_zero (e : ℕ) {S : ℝ} (h : (e : ℝ) ≤ S) : desc e S 0 = 1 := by
  induction e with
  | zero => rfl
  | succ e ih =>
    push_cast at h
    unfold desc
    rw [ih (by linarith), sub_zero, div_self (by linarith), mul_one]

/-- Matrix elements of an operator that commutes with the lowering operator. -/
theorem low {S' S d e : ℕ} {D : ℕ → ℕ → ℝ} (h : Dn0 S' S D) (hS : S' + e = S + d) (j : ℕ) (hj : j + e ≤ S) :
    D (d + j) j = √(asc d j * desc e S j) * D d 0 := by
  induction j with
  | zero =>
    have : (e : ℝ) ≤ S := by exact_mod_cast (by omega : e ≤ S)
    simp [asc_zero, desc_zero e this]
  | succ j ih =>
    have hr := h.succ (d + j) j
    rw [ih (by omega)] at hr
    have hc := c_pos (S := S) (j := j) (by omega)
    have hj' : (j : ℝ) + 1 + e ≤ S := by exact_mod_cast (by omega : j + 1 + e ≤ S)
    have hS' : (S' : ℝ) = S + d - e := by
      have : (S' : ℝ) + e = S + d := by exact_mod_cast hS
      linarith
    have he : (0 : ℝ) ≤ e := by positivity
    have h0 : (0 : ℝ) ≤ j := by positivity
    have key : c S' (d + j) * √(asc d j * desc e S j) = c S j * √(asc d (j + 1) * desc e S (j + 1)) := by
      unfold c
      rw [← Real.sqrt_mul (mul_nonneg (by positivity) (by push_cast; linarith)),
        ← Real.sqrt_mul (mul_nonneg (by positivity) (by linarith))]
      congr 1
      rw [hS']
      push_cast
      linear_combination (-(desc e S (j + 1) * (S - j))) * asc_succ d (j := (j : ℝ)) -
        (asc d j * (j + 1 + d)) * desc_succ e (S := (S : ℝ)) (j := (j : ℝ))
    have : c S j * (D (d + j + 1) (j + 1) - √(asc d (j + 1) * desc e S (j + 1)) * D d 0) = 0 := by
      linear_combination (-1 : ℝ) * hr + D d 0 * key
    have := (mul_eq_zero.1 this).resolve_left hc.ne'
    rw [show d + (j + 1) = d + j + 1 by omega]
    push_cast
    linarith

/-- First commutator with the raising operator. -/
theorem low1 {S' S : ℕ} {D Q : ℕ → ℕ → ℝ} (h : Dn0 S' S D) (hQ : Up S' S D Q) (i j : ℕ) :
    Q i (j + 1) * c S j = (c S' i * c S' i - c S j * c S j) * D i j := by
  have h1 := h.succ i j
  have h2 := hQ.succ i j
  linear_combination (-c S j) * h2 - c S' i * h1

/-- Second commutator with the raising operator. -/
theorem low2 {S' S : ℕ} {D Q R : ℕ → ℕ → ℝ} (h : Dn0 S' S D) (hQ : Up S' S D Q) (hR : Up S' S Q R) (i j : ℕ) :
    R i (j + 2) * c S (j + 1) * c S j =
      (c S' i * c S' i * (c S' (i + 1) * c S' (i + 1) - c S (j + 1) * c S (j + 1)) -
        c S (j + 1) * c S (j + 1) * (c S' i * c S' i - c S j * c S j)) * D i j := by
  have h0 := h.succ i j
  have h1 := low1 h hQ (i + 1) (j + 1)
  have h2 := low1 h hQ i j
  have h3 := hR.succ i (j + 1)
  linear_combination (-c S (j + 1) * c S j) * h3 + c S' i * c S j * h1 - c S (j + 1) * c S (j + 1) * h2 -
    c S' i * (c S' (i + 1) * c S' (i + 1) - c S (j + 1) * c S (j + 1)) * h0

end Verif.Wigner
