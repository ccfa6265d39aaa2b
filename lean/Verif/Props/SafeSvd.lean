import Verif.Spec.SafeSvd
import Mathlib.Algebra.BigOperators.Ring.Finset
import Mathlib.Algebra.BigOperators.Intervals
import Mathlib.Algebra.Order.BigOperators.Ring.Finset
import Mathlib.Algebra.Order.Ring.Rat
import Mathlib.Tactic.Ring
/-!
# C129: singular value decomposition when LAPACK's fails
-/
namespace Verif.Props
open Verif.SafeSvd Verif.ImpSpace Verif.Spec.ImpSpace Verif.Spec.SafeSvd

variable {K : Type} [Field K] [LinearOrder K]

theorem svd_pick (m : Nat) (f : Nat → K) {i : Nat} (hi : i < m) : ∑ j ∈ Finset.range m, (if i = j then (1 : K) else 0) * f j = f i := by
  rw [Finset.sum_eq_single i]
  · simp
  · intro j _ hj; rw [if_neg hj.symm, zero_mul]
  · intro h; exact absurd (Finset.mem_range.2 hi) h

theorem svd_block_cols {m k1 : Nat} (hk : k1 ≤ m) {u c : Nat → Nat → K}
    (hu : ∀ p < m, ∀ q < m, ∑ j ∈ Finset.range m, u j p * u j q = if p = q then 1 else 0)
    (hc : ∀ p < k1, ∀ q < k1, ∑ j ∈ Finset.range k1, c j p * c j q = if p = q then 1 else 0) :
    ∀ p < m, ∀ q < m, ∑ j ∈ Finset.range m, blockRot k1 u c j p * blockRot k1 u c j q = if p = q then 1 else 0 := by
  have mix : ∀ p < k1, ∀ q < m, ∑ j ∈ Finset.range m, (∑ l ∈ Finset.range k1, u j l * c l p) * u j q = if q < k1 then c q p else 0 := by
    intro p hp q hq
    simp only [Finset.sum_mul]
    rw [Finset.sum_comm]
    have e : ∀ l ∈ Finset.range k1, ∑ j ∈ Finset.range m, u j l * c l p * u j q = (if q = l then 1 else 0) * c l p := by
      intro l hl
      have := Finset.mem_range.1 hl
      rw [← hu q hq l (by omega), Finset.sum_mul]
      exact Finset.sum_congr rfl fun j _ => by ring
    rw [Finset.sum_congr rfl e]
    split
    · next h => exact svd_pick k1 (fun l => c l p) h
    · next h =>
      refine Finset.sum_eq_zero fun l hl => ?_
      rw [if_neg, zero_mul]
      rintro rfl
      exact h (Finset.mem_range.1 hl)
  intro p hp q hq
  unfold blockRot
  by_cases h1 : p < k1 <;> by_cases h2 : q < k1
  · simp only [h1, h2, if_true]
    rw [← hc p h1 q h2]
    have e : ∀ j ∈ Finset.range m, (∑ l ∈ Finset.range k1, u j l * c l p) * ∑ l ∈ Finset.range k1, u j l * c l q =
        ∑ l ∈ Finset.range k1, (∑ l' ∈ Finset.range k1, u j l' * c l' p) * u j l * c l q := by
      intro j _
      rw [Finset.mul_sum]
      exact Finset.sum_congr rfl fun l _ => by ring
    rw [Finset.sum_congr rfl e, Finset.sum_comm]
    refine Finset.sum_congr rfl fun l hl => ?_
    have hl := Finset.mem_range.1 hl
    rw [← Finset.sum_mul, mix p h1 l (by omega), if_pos hl]
  · simp only [h1, h2, if_true, if_false]
    rw [mix p h1 q hq, if_neg h2, if_neg (by omega)]
  · simp only [h1, h2, if_true, if_false]
    have := mix q h2 p hp
    rw [if_neg h1] at this
    rw [if_neg (by omega), ← this]
    exact Finset.sum_congr rfl fun j _ => mul_comm _ _
  · simp only [h1, h2, if_false]
    exact hu p hp q hq

theorem svd_split {m k1 : Nat} (hk : k1 ≤ m) (f : Nat → K) :
    ∑ k ∈ Finset.range m, f k = ∑ k ∈ Finset.range k1, f k + ∑ k ∈ Finset.Ico k1 m, f k := (Finset.sum_range_add_sum_Ico f hk).symm

theorem svd_block_prod (k1 : Nat) {u v c d : Nat → Nat → K} (s : Nat → K) (i j : Nat) :
    ∑ k ∈ Finset.range k1, blockRot k1 u c i k * s k * blockRot k1 v d j k =
      ∑ l ∈ Finset.range k1, ∑ l' ∈ Finset.range k1, u i l * (∑ k ∈ Finset.range k1, c l k * s k * d l' k) * v j l' := by
  have e : ∀ k ∈ Finset.range k1, blockRot k1 u c i k * s k * blockRot k1 v d j k =
      ∑ l ∈ Finset.range k1, ∑ l' ∈ Finset.range k1, u i l * (c l k * s k * d l' k) * v j l' := by
    intro k hk
    unfold blockRot
    rw [if_pos (Finset.mem_range.1 hk), if_pos (Finset.mem_range.1 hk), mul_right_comm, Finset.sum_mul_sum, Finset.sum_mul]
    refine Finset.sum_congr rfl fun l _ => ?_
    rw [Finset.sum_mul]
    exact Finset.sum_congr rfl fun l' _ => by ring
  rw [Finset.sum_congr rfl e, Finset.sum_comm]
  refine Finset.sum_congr rfl fun l _ => ?_
  rw [Finset.sum_comm]
  refine Finset.sum_congr rfl fun l' _ => ?_
  rw [Finset.mul_sum, Finset.sum_mul]

theorem svd_block_rows {m k1 : Nat} (hk : k1 ≤ m) {u c : Nat → Nat → K}
    (hu : ∀ p < m, ∀ q < m, ∑ j ∈ Finset.range m, u p j * u q j = if p = q then 1 else 0)
    (hc : ∀ p < k1, ∀ q < k1, ∑ j ∈ Finset.range k1, c p j * c q j = if p = q then 1 else 0) :
    ∀ p < m, ∀ q < m, ∑ j ∈ Finset.range m, blockRot k1 u c p j * blockRot k1 u c q j = if p = q then 1 else 0 := by
  intro p hp q hq
  rw [← hu p hp q hq, svd_split hk, svd_split hk]
  congr 1
  · have := svd_block_prod k1 (u := u) (v := u) (c := c) (d := c) (fun _ => 1) p q
    simp only [mul_one] at this
    rw [this]
    refine Finset.sum_congr rfl fun l hl => ?_
    have e : ∀ l' ∈ Finset.range k1, u p l * (∑ k ∈ Finset.range k1, c l k * c l' k) * u q l' = (if l = l' then 1 else 0) * (u p l * u q l') := by
      intro l' hl'
      rw [hc l (Finset.mem_range.1 hl) l' (Finset.mem_range.1 hl')]
      ring
    rw [Finset.sum_congr rfl e, svd_pick k1 (fun l' => u p l * u q l') (Finset.mem_range.1 hl)]
  · refine Finset.sum_congr rfl fun k hk => ?_
    have : ¬ k < k1 := by
      have := (Finset.mem_Ico.1 hk).1
      omega
    unfold blockRot
    rw [if_neg this, if_neg this]

/-- Eigenvectors of the product with eigenvalue zero. -/
theorem svd_null [IsStrictOrderedRing K] {m n : Nat} {a : Nat → Nat → K} {w : Nat → K} {u : Nat → Nat → K}
    (h : IsEigh m (fun i i' => -aat n a i i') w u) {k : Nat} (hk : k < m) (hw : w k = 0) : ∀ j < n, ∑ i ∈ Finset.range m, u i k * a i j = 0 := by
  have h0 : ∑ j ∈ Finset.range n, (∑ i ∈ Finset.range m, u i k * a i j) * (∑ i ∈ Finset.range m, u i k * a i j) = 0 := by
    have e : ∀ j ∈ Finset.range n, (∑ i ∈ Finset.range m, u i k * a i j) * (∑ i ∈ Finset.range m, u i k * a i j) =
        ∑ i ∈ Finset.range m, ∑ i' ∈ Finset.range m, u i k * (a i j * a i' j * u i' k) := by
      intro j _
      rw [Finset.sum_mul_sum]
      exact Finset.sum_congr rfl fun i _ => Finset.sum_congr rfl fun i' _ => by ring
    rw [Finset.sum_congr rfl e, Finset.sum_comm]
    refine Finset.sum_eq_zero fun i hi => ?_
    rw [Finset.sum_comm]
    have := h.eig i (Finset.mem_range.1 hi) k hk
    rw [hw, zero_mul] at this
    have e2 : ∀ i' ∈ Finset.range m, ∑ j ∈ Finset.range n, u i k * (a i j * a i' j * u i' k) = -(u i k * (-aat n a i i' * u i' k)) := by
      intro i' _
      unfold aat
      rw [neg_mul, mul_neg, neg_neg, Finset.sum_mul, Finset.mul_sum]
    rw [Finset.sum_congr rfl e2, Finset.sum_neg_distrib, ← Finset.mul_sum, this, mul_zero, neg_zero]
  intro j hj
  have := (Finset.sum_eq_zero_iff_of_nonneg fun j _ => mul_self_nonneg _).1 h0 j (Finset.mem_range.2 hj)
  exact mul_self_eq_zero.1 this

/-- C129 for any number of vectors rotated. -/
theorem svd_fallback [IsStrictOrderedRing K] (sqrt : K → K) (hsqrt : sqrt 0 = 0) {m n k1 : Nat} {a : Nat → Nat → K} {wu wv : Nat → K}
    {u v : Nat → Nat → K} {X : Svd K} (hu : IsEigh m (fun i i' => -aat n a i i') wu u) (hv : IsEigh n (fun j j' => -ata m a j j') wv v)
    (hk : k1 ≤ min m n) (h0u : ∀ k, k1 ≤ k → k < m → wu k = 0) (h0v : ∀ k, k1 ≤ k → k < n → wv k = 0)
    (hX : IsSvd k1 k1 (core m n a u v) X) (hXv : ∀ p < k1, ∀ q < k1, ∑ b ∈ Finset.range k1, X.vh b p * X.vh b q = if p = q then 1 else 0) :
    IsSvd m n a (fakeSvd sqrt k1 wu wv u v X) ∧
      ∀ p < n, ∀ q < n, ∑ b ∈ Finset.range n, (fakeSvd sqrt k1 wu wv u v X).vh b p * (fakeSvd sqrt k1 wu wv u v X).vh b q = if p = q then 1 else 0 := by
  have hXr : ∀ p < k1, ∀ q < k1, ∑ b ∈ Finset.range k1, X.vh p b * X.vh q b = if p = q then 1 else 0 := by
    have := hX.right
    rwa [Nat.min_self] at this
  have hv' : IsEigh n (fun j j' => -aat m (fun j i => a i j) j j') wv v := hv
  have nu : ∀ l, k1 ≤ l → l < m → ∀ j < n, ∑ i ∈ Finset.range m, u i l * a i j = 0 := fun l h1 h2 => svd_null hu h2 (h0u l h1 h2)
  have nv : ∀ l, k1 ≤ l → l < n → ∀ i < m, ∑ j ∈ Finset.range n, v j l * a i j = 0 := fun l h1 h2 => svd_null hv' h2 (h0v l h1 h2)
  refine ⟨⟨svd_block_cols (by omega) hu.cols hX.cols, svd_block_rows (by omega) hu.rows hX.rows, ?_, ?_⟩, ?_⟩
  · intro p hp q hq
    exact svd_block_cols (c := fun l p => X.vh p l) (by omega) hv.cols hXr p (by omega) q (by omega)
  · intro i hi j hj
    have hz : ∀ k ∈ Finset.Ico k1 (min m n), (fakeSvd sqrt k1 wu wv u v X).u i k * (fakeSvd sqrt k1 wu wv u v X).s k *
        (fakeSvd sqrt k1 wu wv u v X).vh k j = 0 := by
      intro k hk'
      obtain ⟨h1, h2⟩ := Finset.mem_Ico.1 hk'
      have : (fakeSvd sqrt k1 wu wv u v X).s k = 0 := by
        unfold fakeSvd svals0
        simp only
        rw [if_neg (by omega), h0u k h1 (by omega), h0v k h1 (by omega)]
        simp [hsqrt]
      rw [this, mul_zero, zero_mul]
    rw [svd_split hk, Finset.sum_eq_zero hz, add_zero]
    have hs : ∀ k ∈ Finset.range k1, (fakeSvd sqrt k1 wu wv u v X).u i k * (fakeSvd sqrt k1 wu wv u v X).s k * (fakeSvd sqrt k1 wu wv u v X).vh k j =
        blockRot k1 u X.u i k * X.s k * blockRot k1 v (fun l p => X.vh p l) j k := by
      intro k hk'
      unfold fakeSvd
      simp only
      rw [if_pos (Finset.mem_range.1 hk')]
    rw [Finset.sum_congr rfl hs, svd_block_prod]
    have hp : ∀ l ∈ Finset.range k1, ∀ l' ∈ Finset.range k1, ∑ k ∈ Finset.range k1, X.u l k * X.s k * X.vh k l' = core m n a u v l l' := by
      intro l hl l' hl'
      have := hX.prod l (Finset.mem_range.1 hl) l' (Finset.mem_range.1 hl')
      rw [Nat.min_self] at this
      exact this.symm
    -- the sums may be extended to all eigenvectors
    have ext : ∑ l ∈ Finset.range m, ∑ l' ∈ Finset.range n, u i l * core m n a u v l l' * v j l' =
        ∑ l ∈ Finset.range k1, ∑ l' ∈ Finset.range k1, u i l * core m n a u v l l' * v j l' := by
      rw [svd_split (show k1 ≤ m by omega)]
      have z : ∑ l ∈ Finset.Ico k1 m, ∑ l' ∈ Finset.range n, u i l * core m n a u v l l' * v j l' = 0 := by
        refine Finset.sum_eq_zero fun l hl => Finset.sum_eq_zero fun l' _ => ?_
        obtain ⟨h1, h2⟩ := Finset.mem_Ico.1 hl
        have : core m n a u v l l' = 0 := by
          unfold core
          rw [Finset.sum_comm]
          refine Finset.sum_eq_zero fun j' hj' => ?_
          rw [← Finset.sum_mul, nu l h1 h2 j' (Finset.mem_range.1 hj'), zero_mul]
        rw [this, mul_zero, zero_mul]
      rw [z, add_zero]
      refine Finset.sum_congr rfl fun l _ => ?_
      rw [svd_split (show k1 ≤ n by omega)]
      have z' : ∑ l' ∈ Finset.Ico k1 n, u i l * core m n a u v l l' * v j l' = 0 := by
        refine Finset.sum_eq_zero fun l' hl' => ?_
        obtain ⟨h1, h2⟩ := Finset.mem_Ico.1 hl'
        have : core m n a u v l l' = 0 := by
          unfold core
          refine Finset.sum_eq_zero fun i' hi' => ?_
          have e := nv l' h1 h2 i' (Finset.mem_range.1 hi')
          calc _ = u i' l * ∑ j' ∈ Finset.range n, v j' l' * a i' j' := by
                  rw [Finset.mul_sum]
                  exact Finset.sum_congr rfl fun j' _ => by ring
            _ = 0 := by rw [e, mul_zero]
        rw [this, mul_zero, zero_mul]
      rw [z', add_zero]
    calc a i j = ∑ i' ∈ Finset.range m, (if i = i' then (1 : K) else 0) * ∑ j' ∈ Finset.range n, (if j = j' then (1 : K) else 0) * a i' j' := by
            rw [svd_pick m (fun i' => ∑ j' ∈ Finset.range n, (if j = j' then (1 : K) else 0) * a i' j') hi, svd_pick n (fun j' => a i j') hj]
      _ = ∑ i' ∈ Finset.range m, ∑ j' ∈ Finset.range n, ∑ l ∈ Finset.range m, ∑ l' ∈ Finset.range n, u i l * (u i' l * a i' j' * v j' l') * v j l' := by
            refine Finset.sum_congr rfl fun i' hi' => ?_
            rw [Finset.mul_sum]
            refine Finset.sum_congr rfl fun j' hj' => ?_
            rw [← hu.rows i hi i' (Finset.mem_range.1 hi'), ← hv.rows j hj j' (Finset.mem_range.1 hj'), ← mul_assoc, Finset.sum_mul_sum, Finset.sum_mul]
            refine Finset.sum_congr rfl fun l _ => ?_
            rw [Finset.sum_mul]
            exact Finset.sum_congr rfl fun l' _ => by ring
      _ = ∑ l ∈ Finset.range m, ∑ l' ∈ Finset.range n, u i l * core m n a u v l l' * v j l' := by
            have sw : ∀ i' ∈ Finset.range m, ∑ j' ∈ Finset.range n, ∑ l ∈ Finset.range m, ∑ l' ∈ Finset.range n, u i l * (u i' l * a i' j' * v j' l') * v j l' =
                ∑ l ∈ Finset.range m, ∑ l' ∈ Finset.range n, ∑ j' ∈ Finset.range n, u i l * (u i' l * a i' j' * v j' l') * v j l' := by
              intro i' _
              rw [Finset.sum_comm]
              exact Finset.sum_congr rfl fun l _ => Finset.sum_comm
            rw [Finset.sum_congr rfl sw, Finset.sum_comm]
            refine Finset.sum_congr rfl fun l _ => ?_
            rw [Finset.sum_comm]
            refine Finset.sum_congr rfl fun l' _ => ?_
            unfold core
            rw [Finset.mul_sum, Finset.sum_mul]
            refine Finset.sum_congr rfl fun i' _ => ?_
            rw [Finset.mul_sum, Finset.sum_mul]
      _ = _ := by
            rw [ext]
            exact Finset.sum_congr rfl fun l hl => Finset.sum_congr rfl fun l' hl' => by rw [hp l hl l' hl']
  · exact svd_block_rows (c := fun l p => X.vh p l) (by omega) hv.rows hXv

theorem svd_amax (f : Nat → K) : ∀ (l : List Nat) (x : K), (∃ j, j ∈ l ∧ l.foldl (fun x k => max x (f k)) x = f j) ∨ l.foldl (fun x k => max x (f k)) x = x
  | [], _ => Or.inr rfl
  | k :: l, x => by
    rw [List.foldl_cons]
    rcases svd_amax f l (max x (f k)) with ⟨j, hj, e⟩ | e
    · exact Or.inl ⟨j, List.mem_cons_of_mem _ hj, e⟩
    · rcases max_choice x (f k) with h | h
      · exact Or.inr (by rw [e, h])
      · exact Or.inl ⟨k, List.mem_cons_self, by rw [e, h]⟩

/-- The number of singular values kept is the rank. -/
theorem svd_kept [IsStrictOrderedRing K] (sqrt : K → K) (hsqrt : sqrt 0 = 0) (hpos : ∀ x, 0 ≤ sqrt x) {thr : K} (hthr : 0 ≤ thr) {m n rank : Nat}
    {wu wv : Nat → K} (hr0 : 0 < rank) (hr : rank ≤ min m n) (hbig : ∀ k < rank, ∀ j < min m n, thr * sigma sqrt wu wv j < sigma sqrt wu wv k)
    (h0u : ∀ k, rank ≤ k → k < m → wu k = 0) (h0v : ∀ k, rank ≤ k → k < n → wv k = 0) : kept sqrt thr m n wu wv = rank := by
  have es : ∀ k, svals0 sqrt wu wv k = sigma sqrt wu wv k := by
    intro k
    unfold svals0 sigma
    congr 2
    ring
  obtain ⟨j, hj, ej⟩ : ∃ j < min m n, (List.range (min m n)).foldl (fun x k => max x (svals0 sqrt wu wv k)) (svals0 sqrt wu wv 0) = sigma sqrt wu wv j := by
    rcases svd_amax (svals0 sqrt wu wv) (List.range (min m n)) (svals0 sqrt wu wv 0) with ⟨j, hj, e⟩ | e
    · exact ⟨j, List.mem_range.1 hj, by rw [e, es]⟩
    · exact ⟨0, by omega, by rw [e, es]⟩
  have hge : ∀ k < rank, 0 < sigma sqrt wu wv k := fun k hk => lt_of_le_of_lt (mul_nonneg hthr (hpos _)) (hbig k hk j hj)
  have hle : ∀ (l : List Nat) (x : K), x ≤ l.foldl (fun x k => max x (svals0 sqrt wu wv k)) x := by
    intro l
    induction l with
    | nil => exact fun x => le_refl x
    | cons k l ih => exact fun x => le_trans (le_max_left _ _) (ih _)
  have hj0 : 0 < sigma sqrt wu wv j := by
    rw [← ej]
    refine lt_of_lt_of_le ?_ (hle _ _)
    rw [es]
    exact hge 0 hr0
  unfold kept
  simp only
  rw [ej]
  have hf : ∀ k ∈ List.range (min m n), (decide (thr < svals0 sqrt wu wv k / sigma sqrt wu wv j)) = decide (k < rank) := by
    intro k hk
    have hk := List.mem_range.1 hk
    rw [es]
    by_cases h : k < rank
    · rw [decide_eq_true h, decide_eq_true ((lt_div_iff₀ hj0).2 (hbig k h j hj))]
    · rw [decide_eq_false h, decide_eq_false]
      have : sigma sqrt wu wv k = 0 := by
        unfold sigma
        rw [h0u k (by omega) (by omega), h0v k (by omega) (by omega)]
        simp [hsqrt]
      rw [this, zero_div]
      exact not_lt.2 hthr
  rw [List.filter_congr hf]
  obtain ⟨e, he⟩ := Nat.exists_eq_add_of_le hr
  rw [he, List.range_add, List.filter_append, List.length_append, List.filter_eq_self.2, List.filter_eq_nil_iff.2]
  · simp
  · intro a ha
    obtain ⟨b, -, rfl⟩ := List.mem_map.1 ha
    simp
  · intro a ha
    exact decide_eq_true (List.mem_range.1 ha)

/-- C129: if the matrix has `rank` singular values that are not small compared with the largest, and the others are zero, what is returned in
place of LAPACK's result is a singular value decomposition of the matrix, with square orthogonal matrices. -/
theorem C129_fallback_partial [IsStrictOrderedRing K] (sqrt : K → K) (hsqrt : sqrt 0 = 0) (hpos : ∀ x, 0 ≤ sqrt x) {thr : K} (hthr : 0 ≤ thr)
    {m n rank : Nat} {a : Nat → Nat → K} {wu wv : Nat → K}
    {u v : Nat → Nat → K} {X : Svd K} (hu : IsEigh m (fun i i' => -∑ j ∈ Finset.range n, a i j * a i' j) wu u)
    (hv : IsEigh n (fun j j' => -∑ i ∈ Finset.range m, a i j * a i j') wv v) (hr0 : 0 < rank) (hr : rank ≤ min m n)
    (hbig : ∀ k < rank, ∀ j < min m n, thr * sigma sqrt wu wv j < sigma sqrt wu wv k)
    (h0u : ∀ k, rank ≤ k → k < m → wu k = 0) (h0v : ∀ k, rank ≤ k → k < n → wv k = 0) (hX : IsSvd rank rank (core m n a u v) X)
    (hXv : ∀ p < rank, ∀ q < rank, ∑ b ∈ Finset.range rank, X.vh b p * X.vh b q = if p = q then 1 else 0) :
    IsSvd m n a (fakeSvd sqrt (kept sqrt thr m n wu wv) wu wv u v X) ∧
      ∀ p < n, ∀ q < n, ∑ b ∈ Finset.range n, (fakeSvd sqrt (kept sqrt thr m n wu wv) wu wv u v X).vh b p *
        (fakeSvd sqrt (kept sqrt thr m n wu wv) wu wv u v X).vh b q = if p = q then 1 else 0 := by
  rw [svd_kept sqrt hsqrt hpos hthr hr0 hr hbig h0u h0v]
  exact svd_fallback sqrt hsqrt hu hv hr h0u h0v hX hXv

/-- C129: if truncated matrices are asked for, the shapes of those returned are LAPACK's only if the matrix has no more columns than rows. -/
theorem C129_shapes_violated : (∀ m n, fakeShapes true m n = svdShapes true m n) ∧ (∀ m n, fakeShapes false m n = svdShapes false m n ↔ n ≤ m) ∧
    fakeShapes false 2 3 = ((2, 2), (3, 3)) := by
  refine ⟨fun m n => rfl, fun m n => ?_, rfl⟩
  unfold fakeShapes svdShapes
  simp

/-- A matrix of rank one with two rows and one column. -/
example : ∃ (sqrt : Rat → Rat) (a : Nat → Nat → Rat) (wu wv : Nat → Rat) (u v : Nat → Nat → Rat) (X : Svd Rat), sqrt 0 = 0 ∧ (∀ x, 0 ≤ sqrt x) ∧
    IsEigh 2 (fun i i' => -∑ j ∈ Finset.range 1, a i j * a i' j) wu u ∧ IsEigh 1 (fun j j' => -∑ i ∈ Finset.range 2, a i j * a i j') wv v ∧
    (∀ k < 1, ∀ j < min 2 1, (1 / 10000000 : Rat) * sigma sqrt wu wv j < sigma sqrt wu wv k) ∧
    (∀ k, 1 ≤ k → k < 2 → wu k = 0) ∧ (∀ k, 1 ≤ k → k < 1 → wv k = 0) ∧
    IsSvd 1 1 (core 2 1 a u v) X ∧ ∀ p < 1, ∀ q < 1, ∑ b ∈ Finset.range 1, X.vh b p * X.vh b q = if p = q then 1 else 0 := by
  let one : Nat → Nat → Rat := fun j k => if j = k then 1 else 0
  refine ⟨fun x => if x = 25 then 5 else 0, fun i _ => if i = 0 then 3 else 4, fun k => if k = 0 then -25 else 0, fun _ => -25,
    fun i k => if i = 0 then (if k = 0 then 3 / 5 else -4 / 5) else (if k = 0 then 4 / 5 else 3 / 5), one, ⟨one, fun _ => 5, one⟩,
    by decide +kernel, fun x => ?_, ⟨?_, ?_, ?_⟩, ⟨?_, ?_, ?_⟩, ?_, ?_, ?_, ⟨?_, ?_, ?_, ?_⟩, ?_⟩
  · simp only
    split <;> decide +kernel
  iterate 7 decide +kernel
  · intro k h1 h2
    have : k = 1 := by omega
    rw [this]
    rfl
  · intro k h1 h2
    omega
  all_goals decide +kernel

end Verif.Props
