import Verif.Props.ImpSpace
/-!
# C128: which gradient orbitals are added
-/
namespace Verif.Props
open Verif.ImpSpace Verif.Spec.ImpSpace

variable {K : Type} [Field K] [LinearOrder K] [IsStrictOrderedRing K]

theorem grad_rot (n : Nat) (g : Nat → Nat → K) (eo : List (Orb K)) (u : Nat → Nat → K) (k : Nat) (w : Orb K) :
    grad n g (rot eo u k) w = ∑ j ∈ Finset.range eo.length, u j k * grad n g (col eo j) w := by
  unfold grad rot
  simp only [Finset.sum_mul, Finset.mul_sum]
  rw [Finset.sum_comm (s := Finset.range eo.length)]
  refine Finset.sum_congr rfl fun i _ => ?_
  rw [Finset.sum_comm]
  exact Finset.sum_congr rfl fun j _ => Finset.sum_congr rfl fun l _ => by ring

/-- The gradient of a rotated orbital is its singular value. -/
theorem grad_sval (n : Nat) (g : Nat → Nat → K) {fo E : List (Orb K)} {X : Svd K}
    (hX : IsSvd E.length fo.length (fun j b => grad n g (col E j) (col fo b)) X) (hE : E.length ≤ fo.length) {p : Nat} (hp : p < E.length) :
    gradSq n g fo (rot E X.u p) = X.s p ^ 2 := by
  have hmin : min E.length fo.length = E.length := Nat.min_eq_left hE
  have e : ∀ b ∈ Finset.range fo.length, grad n g (rot E X.u p) (col fo b) ^ 2 = X.s p ^ 2 * (X.vh p b * X.vh p b) := by
    intro b hb
    have : grad n g (rot E X.u p) (col fo b) = X.s p * X.vh p b := by
      rw [grad_rot]
      have e1 : ∀ j ∈ Finset.range E.length, X.u j p * grad n g (col E j) (col fo b) =
          ∑ q ∈ Finset.range E.length, X.u j p * X.u j q * (X.s q * X.vh q b) := by
        intro j hj
        have := hX.prod j (Finset.mem_range.1 hj) b (Finset.mem_range.1 hb)
        simp only [hmin] at this
        rw [this, Finset.mul_sum]
        exact Finset.sum_congr rfl fun q _ => by ring
      rw [Finset.sum_congr rfl e1, Finset.sum_comm]
      have e2 : ∀ q ∈ Finset.range E.length, ∑ j ∈ Finset.range E.length, X.u j p * X.u j q * (X.s q * X.vh q b) =
          if p = q then X.s q * X.vh q b else 0 := by
        intro q hq
        rw [← Finset.sum_mul, hX.cols p hp q (Finset.mem_range.1 hq), ite_mul, one_mul, zero_mul]
      rw [Finset.sum_congr rfl e2, Finset.sum_ite_eq, if_pos (Finset.mem_range.2 hp)]
    rw [this]
    ring
  unfold gradSq
  rw [Finset.sum_congr rfl e, ← Finset.mul_sum, hX.right p (by omega) p (by omega), if_pos rfl, mul_one]

/-- C128: if there are no more inactive and no more external environment orbitals than fragment orbitals, no orbital left in the environment has
a larger gradient than one that was added. -/
theorem C128_largest_partial (n : Nat) (argsort : Nat → (Nat → K) → Nat → Nat) (hsort : ∀ m f, ((List.range m).map (argsort m f)).Perm (List.range m))
    (hmono : ∀ (m : Nat) (f : Nat → K) (i j : Nat), i ≤ j → j < m → f (argsort m f i) ≤ f (argsort m f j))
    {ncore ni ntarget : Nat} {fo eo : List (Orb K)} {X Xi Xx : Svd K} {g : Nat → Nat → K}
    (hXi : IsSvd ((rotAll eo X.u).take ni).length fo.length (fun j b => grad n g (col ((rotAll eo X.u).take ni) j) (col fo b)) Xi)
    (hXx : IsSvd ((rotAll eo X.u).drop ni).length fo.length (fun j b => grad n g (col ((rotAll eo X.u).drop ni) j) (col fo b)) Xx)
    (hi : ((rotAll eo X.u).take ni).length ≤ fo.length) (hx : ((rotAll eo X.u).drop ni).length ≤ fo.length)
    {r : List (Orb K) × List (Orb K)} (hr : ia2x argsort ncore ni ntarget fo eo X Xi Xx = some r) :
    ∀ z ∈ r.1.drop fo.length, ∀ w ∈ r.2, gradSq n g fo w ≤ gradSq n g fo z := by
  unfold ia2x at hr
  split at hr
  · cases hr
    intro z hz
    simp at hz
  · simp only at hr
    split at hr
    · exact absurd hr (by simp)
    · simp only [Option.some.injEq] at hr
      subst hr
      simp only [List.drop_left]
      generalize (rotAll eo X.u).take ni = A at hXi hi
      generalize (rotAll eo X.u).drop ni = B at hXx hx
      have li : ∀ l : List (Orb K), ∀ u, (rotAll l u).length = l.length := fun l u => by simp [rotAll]
      have ha : min (rotAll A Xi.u).length fo.length = A.length := by rw [li]; omega
      have hb : min (rotAll B Xx.u).length fo.length = B.length := by rw [li]; omega
      rw [ha, hb]
      have key : ∀ k < A.length + B.length, gradSq n g fo (col (rotAll A Xi.u ++ rotAll B Xx.u) k) = |bothSvals (rotAll A Xi.u).length fo.length Xi Xx k| ^ 2 := by
        intro k hk
        unfold bothSvals
        rw [ha, sq_abs]
        by_cases h : k < A.length
        · rw [if_pos h, ← grad_sval n g hXi hi h]
          congr 1
          unfold col
          rw [List.getD_eq_getElem?_getD, List.getElem?_append_left (by rw [li]; exact h)]
          simp [rotAll, h]
        · rw [if_neg h, ← grad_sval n g hXx hx (show k - A.length < B.length by omega)]
          congr 1
          unfold col
          rw [List.getD_eq_getElem?_getD, List.getElem?_append_right (by rw [li]; omega), li]
          simp [rotAll, show k - A.length < B.length by omega]
      generalize hf : (fun i => -|bothSvals (rotAll A Xi.u).length fo.length Xi Xx i|) = f
      have hlt : ∀ i < A.length + B.length, argsort (A.length + B.length) f i < A.length + B.length := by
        intro i hi
        exact List.mem_range.1 ((hsort _ f).mem_iff.1 (List.mem_map.2 ⟨i, List.mem_range.2 hi, rfl⟩))
      intro z hz w hw
      obtain ⟨i, hi', rfl⟩ := List.mem_take_iff_getElem.1 hz
      obtain ⟨j, hj', rfl⟩ := List.mem_drop_iff_getElem.1 hw
      simp only [List.length_map, List.length_range] at hi' hj'
      simp only [List.getElem_map, List.getElem_range]
      have h1 := hmono (A.length + B.length) f i (min eo.length (ntarget - fo.length) + j) (by omega) (by omega)
      rw [key _ (hlt _ (by omega)), key _ (hlt _ (by omega))]
      have h2 : |bothSvals (rotAll A Xi.u).length fo.length Xi Xx (argsort (A.length + B.length) f (min eo.length (ntarget - fo.length) + j))| ≤
          |bothSvals (rotAll A Xi.u).length fo.length Xi Xx (argsort (A.length + B.length) f i)| := by
        have e : ∀ k, f k = -|bothSvals (rotAll A Xi.u).length fo.length Xi Xx k| := fun k => by rw [← hf]
        rw [e, e] at h1
        exact neg_le_neg_iff.1 h1
      exact pow_le_pow_left₀ (abs_nonneg _) h2 2

/-- One fragment orbital, one inactive environment orbital without and one external with a gradient; sorting of two numbers. -/
example : ∃ (argsort : Nat → (Nat → Rat) → Nat → Nat) (g : Nat → Nat → Rat) (X Xi Xx : Svd Rat) (r : List (Orb Rat) × List (Orb Rat)),
    (∀ f, ((List.range 2).map (argsort 2 f)).Perm (List.range 2) ∧ f (argsort 2 f 0) ≤ f (argsort 2 f 1)) ∧
    IsSvd 1 1 (fun j b => grad 3 g (col ((rotAll [unitOrb 1, unitOrb 2] X.u).take 1) j) (col [unitOrb 0] b)) Xi ∧
    IsSvd 1 1 (fun j b => grad 3 g (col ((rotAll [unitOrb 1, unitOrb 2] X.u).drop 1) j) (col [unitOrb 0] b)) Xx ∧
    ia2x argsort 1 1 2 [unitOrb 0] [unitOrb 1, unitOrb 2] X Xi Xx = some r ∧ r.1.length = 2 ∧ r.2.length = 1 ∧
    gradSq 3 g [unitOrb 0] (col r.1 1) = 1 ∧ gradSq 3 g [unitOrb 0] (col r.2 0) = 0 := by
  let one : Nat → Nat → Rat := fun j k => if j = k then 1 else 0
  refine ⟨fun _ f k => if f 1 < f 0 then 1 - k else k, fun i j => if i = 2 ∧ j = 0 then 1 else if i = 0 ∧ j = 2 then -1 else 0, ⟨one, fun _ => 1, one⟩,
    ⟨one, fun _ => 0, one⟩, ⟨one, fun _ => 1, one⟩, _, fun f => ?_, ⟨?_, ?_, ?_, ?_⟩, ⟨?_, ?_, ?_, ?_⟩, rfl, rfl, rfl, ?_, ?_⟩
  · by_cases h : f 1 < f 0
    · simp only [h, if_true]
      exact ⟨by decide, le_of_lt h⟩
    · simp only [h, if_false]
      exact ⟨by decide, not_lt.1 h⟩
  all_goals decide +kernel

end Verif.Props
