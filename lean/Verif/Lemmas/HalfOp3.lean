import Verif.Lemmas.HalfOp2
/-!
# Three half-electrons, and pairs
-/
namespace Verif.HalfOp
open Verif.Dummy Verif.FciRdm Verif.Fockspace Verif.Spec.Tdm Verif.Spec.FciRdm Verif.Spec.HalfOp Verif.Tdm Verif.Props.FciRdm
open Verif.Spec.Fsucc (nOcc nAbove)

variable {K : Type} [Field K]

/-- The padded two-body matrix on a padded vector. -/
theorem unpad_nrm (n : Nat) (a b : Bool) (c : Bool) (h : Nat → Nat → Nat → K) (φ : Vec K) (A B : Nat) :
    unpad n a b (fun A B => ∑ p ∈ Finset.range (n + 1), ∑ q ∈ Finset.range (n + 1), ∑ r ∈ Finset.range (n + 1), ∑ u ∈ Finset.range (n + 1),
      ∑ s : Bool, ∑ t : Bool, halfMat3 h c n p q r u * nrm (n + 1) s t p q r u φ A B) A B =
    2 * ∑ p ∈ Finset.range n, ∑ q ∈ Finset.range n, ∑ r ∈ Finset.range n, ∑ s : Bool, ∑ t : Bool, h p q r *
      if c then unpad n a b (nrm (n + 1) s t p n q r φ) A B + unpad n a b (nrm (n + 1) s t n p r q φ) A B
      else unpad n a b (nrm (n + 1) s t p q n r φ) A B + unpad n a b (nrm (n + 1) s t q p r n φ) A B := by
  rw [← sum_half3 n c h (fun p q r u s t => unpad n a b (nrm (n + 1) s t p q r u φ) A B)]
  · simp only [unpad, Finset.mul_sum]
    refine Finset.sum_congr rfl fun p _ => Finset.sum_congr rfl fun q _ => Finset.sum_congr rfl fun r _ => Finset.sum_congr rfl fun u _ =>
      Finset.sum_congr rfl fun s _ => Finset.sum_congr rfl fun t _ => ?_
    ring
  · intro p hp q hq r hr u hu s t
    rw [nrm_swap s t (by omega) (by omega) (by omega) (by omega)]

theorem three_create {n A B : Nat} (s : Bool) (h : Nat → Nat → Nat → K) (ψ : Vec K) (hA : A < 2 ^ n) (hB : B < 2 ^ n) :
    unpad n false false (fun A B => ∑ p ∈ Finset.range (n + 1), ∑ q ∈ Finset.range (n + 1), ∑ r ∈ Finset.range (n + 1),
      ∑ u ∈ Finset.range (n + 1), ∑ σ : Bool, ∑ t : Bool, halfMat3 h true n p q r u * nrm (n + 1) σ t p q r u (pad n (!s) s ψ) A B) A B =
    2 * ∑ p ∈ Finset.range n, ∑ q ∈ Finset.range n, ∑ r ∈ Finset.range n, ∑ t : Bool, h p q r * cre n s p (exc n t q r ψ) A B := by
  rw [unpad_nrm]
  congr 1
  refine Finset.sum_congr rfl fun p hp => Finset.sum_congr rfl fun q hq => Finset.sum_congr rfl fun r hr => ?_
  rw [Finset.sum_comm]
  refine Finset.sum_congr rfl fun t _ => ?_
  have hp' := Finset.mem_range.1 hp
  have hq' := Finset.mem_range.1 hq
  have hr' := Finset.mem_range.1 hr
  have h1 : ∀ σ, unpad n false false (nrm (n + 1) σ t n p r q (pad n (!s) s ψ)) A B = 0 := fun σ =>
    unpad_cre σ false false _ hA hB (by cases σ <;> rfl)
  have h2 : ∀ σ, unpad n false false (nrm (n + 1) σ t p n q r (pad n (!s) s ψ)) A B =
      if σ = s then cre n s p (exc n t q r ψ) A B else 0 := by
    intro σ
    unfold nrm exc
    by_cases ht : σ = s
    · subst ht
      rw [if_pos rfl, ann_dummy, ann_empty _ _ hr', cre_empty _ _ hq', cre_empty _ _ hp', unpad_pad _ _ _ hA hB]
    · rw [if_neg ht, ann_dummy_ne ht, Ladder.ann_zero, cre_zero, cre_zero, unpad_zero]
  simp only [if_true, h1, h2, add_zero]
  cases s <;> simp

theorem three_destroy {n A B : Nat} (s : Bool) (h : Nat → Nat → Nat → K) (ψ : Vec K) (hA : A < 2 ^ n) (hB : B < 2 ^ n) :
    unpad n (!s) s (fun A B => ∑ p ∈ Finset.range (n + 1), ∑ q ∈ Finset.range (n + 1), ∑ r ∈ Finset.range (n + 1),
      ∑ u ∈ Finset.range (n + 1), ∑ σ : Bool, ∑ t : Bool, halfMat3 h false n p q r u * nrm (n + 1) σ t p q r u (pad n false false ψ) A B) A B =
    2 * ∑ p ∈ Finset.range n, ∑ q ∈ Finset.range n, ∑ r ∈ Finset.range n, ∑ t : Bool, h p q r * exc n t p q (ann n s r ψ) A B := by
  rw [unpad_nrm]
  congr 1
  refine Finset.sum_congr rfl fun p hp => Finset.sum_congr rfl fun q hq => Finset.sum_congr rfl fun r hr => ?_
  refine Finset.sum_congr rfl fun t _ => ?_
  have hp' := Finset.mem_range.1 hp
  have hq' := Finset.mem_range.1 hq
  have hr' := Finset.mem_range.1 hr
  have h1 : ∀ σ, unpad n (!s) s (nrm (n + 1) t σ q p r n (pad n false false ψ)) A B = 0 := by
    intro σ
    unfold nrm
    rw [ann_empty _ _ hp', ann_none, cre_zero, cre_zero, unpad_zero]
  have h2 : ∀ σ, unpad n (!s) s (nrm (n + 1) t σ p q n r (pad n false false ψ)) A B =
      if σ = s then exc n t p q (ann n s r ψ) A B else 0 := by
    intro σ
    rw [nrm_swap t σ (by omega) (by omega) (by omega) (by omega)]
    unfold nrm exc
    rw [ann_empty _ _ hr', ann_empty _ _ hq', cre_empty _ _ hp', cre_dummy, unpad_dummy _ _ _ hA hB]
    by_cases ht : σ = s
    · subst ht; rfl
    · rw [if_neg ht, if_neg ht]
  simp only [Bool.false_eq_true, if_false, h1, h2, add_zero]
  cases s <;> simp

/-! ### pairs -/

theorem sum_ltk (n k : Nat) (F : Nat → K) : (∑ p ∈ Finset.range (n + k), if p < n then F p else 0) = ∑ p ∈ Finset.range n, F p := by
  induction k with
  | zero => exact Finset.sum_congr rfl fun p hp => if_pos (Finset.mem_range.1 hp)
  | succ k ih => rw [← Nat.add_assoc, Finset.sum_range_succ, ih, if_neg (by omega), add_zero]

/-- A pair of indices of which one is `D` and the other is below `n`. -/
theorem sum_placed {n k D : Nat} (h1 : n ≤ D) (h2 : D < n + k) (F : Nat → Nat → Nat → K) :
    (∑ p ∈ Finset.range (n + k), ∑ q ∈ Finset.range (n + k), if min p q < n ∧ max p q = D then F (min p q) p q else 0) =
      ∑ x ∈ Finset.range n, (F x x D + F x D x) := by
  have e : ∀ p q, (if min p q < n ∧ max p q = D then F (min p q) p q else 0) =
      (if p < n then (if q = D then F p p q else 0) else 0) + (if p = D then (if q < n then F q p q else 0) else 0) := by
    intro p q
    rcases Nat.lt_or_ge p q with hpq | hpq
    · rw [Nat.min_eq_left hpq.le, Nat.max_eq_right hpq.le]
      by_cases hp : p < n
      · by_cases hq : q = D
        · rw [if_pos ⟨hp, hq⟩, if_pos hp, if_pos hq, if_neg (by omega), add_zero]
        · rw [if_neg (by omega), if_pos hp, if_neg hq, if_neg (by omega), add_zero]
      · rw [if_neg (by omega), if_neg hp]
        split
        · rw [if_neg (by omega), add_zero]
        · rw [add_zero]
    · rw [Nat.min_eq_right hpq, Nat.max_eq_left hpq]
      by_cases hp : p = D
      · by_cases hq : q < n
        · rw [if_pos ⟨hq, hp⟩, if_neg (by omega), if_pos hp, if_pos hq, zero_add]
        · rw [if_neg (by omega), if_neg (by omega), if_pos hp, if_neg hq, zero_add]
      · rw [if_neg (by omega), if_neg hp, add_zero]
        split
        · rw [if_neg (by omega)]
        · rfl
  simp only [e, Finset.sum_add_distrib]
  have s1 : ∀ (c : Prop) [Decidable c] (I : Finset Nat) (F : Nat → K), (∑ x ∈ I, if c then F x else 0) = if c then ∑ x ∈ I, F x else 0 := by
    intro c _ I F; split <;> simp
  simp only [s1, sum_ltk, sum_at h2]

theorem pack_pair {n k : Nat} (hk : 0 < k) (op : M2 K) (p q r u : Nat) :
    pack (pairMat op n k) p q r u =
      if min p q < n ∧ max p q = n + k - 1 then (if min r u < n ∧ max r u = n then op (min p q) (min r u) else 0) else 0 := by
  unfold pack pairMat
  dsimp only
  rw [if_neg (by omega), zero_add]
  by_cases h1 : min p q < n ∧ max p q = n + k - 1
  · rw [if_pos h1]
    by_cases h2 : min r u < n ∧ max r u = n
    · rw [if_pos h2, if_pos ⟨h1.1, h1.2, h2.1, h2.2⟩]
    · rw [if_neg h2, if_neg (by omega)]
  · rw [if_neg h1, if_neg (by omega)]

theorem sum_pair {n k : Nat} (hk : 0 < k) (op : M2 K) (W : Nat → Nat → Nat → Nat → K) :
    (∑ p ∈ Finset.range (n + k), ∑ q ∈ Finset.range (n + k), ∑ r ∈ Finset.range (n + k), ∑ u ∈ Finset.range (n + k),
      pack (pairMat op n k) p q r u * W p q r u) =
    ∑ x ∈ Finset.range n, ∑ y ∈ Finset.range n, op x y * (W x (n + k - 1) y n + W x (n + k - 1) n y + W (n + k - 1) x y n + W (n + k - 1) x n y) := by
  have s1 : ∀ (c : Prop) [Decidable c] (I : Finset Nat) (F : Nat → K), (∑ x ∈ I, if c then F x else 0) = if c then ∑ x ∈ I, F x else 0 := by
    intro c _ I F; split <;> simp
  simp only [pack_pair hk, ite_mul, zero_mul, s1]
  rw [sum_placed (by omega) (by omega) (fun m p q => ∑ r ∈ Finset.range (n + k), ∑ u ∈ Finset.range (n + k),
    if min r u < n ∧ max r u = n then op m (min r u) * W p q r u else 0)]
  refine Finset.sum_congr rfl fun x _ => ?_
  rw [sum_placed (Nat.le_refl n) (by omega) (fun m r u => op x m * W x (n + k - 1) r u),
    sum_placed (Nat.le_refl n) (by omega) (fun m r u => op x m * W (n + k - 1) x r u), ← Finset.sum_add_distrib]
  exact Finset.sum_congr rfl fun y _ => by ring

/-- Two spins in a sum. -/
theorem sum_spin (N : Nat) (g : Bool → Bool → M4 K) (W : Bool → Bool → Nat → Nat → Nat → Nat → K) :
    (∑ p ∈ Finset.range N, ∑ q ∈ Finset.range N, ∑ r ∈ Finset.range N, ∑ u ∈ Finset.range N, ∑ s : Bool, ∑ t : Bool,
      g s t p q r u * W s t p q r u) =
    ∑ s : Bool, ∑ t : Bool, ∑ p ∈ Finset.range N, ∑ q ∈ Finset.range N, ∑ r ∈ Finset.range N, ∑ u ∈ Finset.range N,
      g s t p q r u * W s t p q r u := by
  simp only [Fintype.sum_bool, Finset.sum_add_distrib]

theorem unpad_twoE (n N : Nat) (a b : Bool) (g : Bool → Bool → M4 K) (φ : Vec K) (A B : Nat) :
    unpad n a b (twoE N g φ) A B = ∑ p ∈ Finset.range N, ∑ q ∈ Finset.range N, ∑ r ∈ Finset.range N, ∑ u ∈ Finset.range N,
      ∑ s : Bool, ∑ t : Bool, g s t p q r u * unpad n a b (exc N s p q (exc N t r u φ)) A B := by
  simp only [unpad, twoE, Finset.mul_sum]
  refine Finset.sum_congr rfl fun p _ => Finset.sum_congr rfl fun q _ => Finset.sum_congr rfl fun r _ => Finset.sum_congr rfl fun u _ =>
    Finset.sum_congr rfl fun s _ => Finset.sum_congr rfl fun t _ => ?_
  ring

theorem unpad_unpad_twoE (m n N : Nat) (a b a' b' : Bool) (g : Bool → Bool → M4 K) (φ : Vec K) (A B : Nat) :
    unpad m a' b' (unpad n a b (twoE N g φ)) A B = ∑ p ∈ Finset.range N, ∑ q ∈ Finset.range N, ∑ r ∈ Finset.range N, ∑ u ∈ Finset.range N,
      ∑ s : Bool, ∑ t : Bool, g s t p q r u * unpad m a' b' (unpad n a b (exc N s p q (exc N t r u φ))) A B := by
  rw [show unpad n a b (twoE N g φ) = fun A B => ∑ p ∈ Finset.range N, ∑ q ∈ Finset.range N, ∑ r ∈ Finset.range N, ∑ u ∈ Finset.range N,
      ∑ s : Bool, ∑ t : Bool, g s t p q r u * unpad n a b (exc N s p q (exc N t r u φ)) A B from
    funext fun A => funext fun B => unpad_twoE n N a b g φ A B]
  generalize (unpad n a b : Vec K → Vec K) = U
  simp only [unpad, Finset.mul_sum]
  refine Finset.sum_congr rfl fun p _ => Finset.sum_congr rfl fun q _ => Finset.sum_congr rfl fun r _ => Finset.sum_congr rfl fun u _ =>
    Finset.sum_congr rfl fun s _ => Finset.sum_congr rfl fun t _ => ?_
  ring

/-- `unpad` depends only on strings in range. -/
theorem unpad_congr {n A B : Nat} (a b : Bool) {φ χ : Vec K} (h : ∀ A < 2 ^ (n + 1), ∀ B < 2 ^ (n + 1), φ A B = χ A B) (hA : A < 2 ^ n)
    (hB : B < 2 ^ n) : unpad n a b φ A B = unpad n a b χ A B := by
  unfold unpad
  rw [h _ (ext_lt a hA) _ (ext_lt b hB)]

theorem unpad_smul (n : Nat) (a b : Bool) (c : K) (φ : Vec K) (A B : Nat) : unpad n a b (fun A B => c * φ A B) A B = c * unpad n a b φ A B := by
  unfold unpad; ring

/-- Operators on an orbital of the dummy pair that the vector was padded with first. -/
theorem ann_pad' {n p : Nat} (s σ : Bool) (ψ : Vec K) (hp : p < n) :
    ann (n + 1) s p (pad n (!σ) σ ψ) = fun A B => (-1) * pad n (!σ) σ (ann n s p ψ) A B := by
  rw [ann_pad s (!σ) σ ψ hp]; cases σ <;> simp

theorem cre_pad' {n p : Nat} (s σ : Bool) (ψ : Vec K) (hp : p < n) :
    cre (n + 1) s p (pad n (!σ) σ ψ) = fun A B => (-1) * pad n (!σ) σ (cre n s p ψ) A B := by
  rw [cre_pad s (!σ) σ ψ hp]; cases σ <;> simp

theorem cre_full (n : Nat) (s : Bool) (ψ : Vec K) : cre (n + 1) s n (pad n (!s) s ψ) = fun _ _ => 0 :=
  cre_pad_full s (!s) s ψ (by cases s <;> rfl)

theorem pad_smul (n : Nat) (a b : Bool) (c : K) (ψ : Vec K) : pad n a b (fun A B => c * ψ A B) = fun A B => c * pad n a b ψ A B := by
  funext A B
  unfold pad
  split
  · ring
  · simp

theorem pad_zero (n : Nat) (a b : Bool) : pad n a b (fun _ _ => (0 : K)) = fun _ _ => 0 := by
  funext A B; unfold pad; simp

/-- Two electrons of the same spin are created. -/
theorem same_create {n A B : Nat} (σ : Bool) (op : M2 K) (ψ : Vec K) (hA : A < 2 ^ n) (hB : B < 2 ^ n) (g : Bool → Bool → M4 K)
    (hg : ∀ s t, g s t = if s = σ ∧ t = σ then pack (pairMat op n 2) else fun _ _ _ _ => 0) :
    unpad n false false (unpad (n + 1) false false (twoE (n + 2) g (pad (n + 1) (!σ) σ (pad n (!σ) σ ψ)))) A B =
      pairCre n σ σ op ψ A B := by
  rw [unpad_unpad_twoE, sum_spin]
  have e : ∀ W : Bool → Bool → Nat → Nat → Nat → Nat → K, (∑ s : Bool, ∑ t : Bool, ∑ p ∈ Finset.range (n + 2), ∑ q ∈ Finset.range (n + 2),
      ∑ r ∈ Finset.range (n + 2), ∑ u ∈ Finset.range (n + 2), g s t p q r u * W s t p q r u) =
      ∑ p ∈ Finset.range (n + 2), ∑ q ∈ Finset.range (n + 2), ∑ r ∈ Finset.range (n + 2), ∑ u ∈ Finset.range (n + 2),
        pack (pairMat op n 2) p q r u * W σ σ p q r u := by
    intro W
    simp only [hg, Fintype.sum_bool]
    cases σ <;> simp
  rw [e, sum_pair (by omega)]
  unfold pairCre
  refine Finset.sum_congr rfl fun x hx => Finset.sum_congr rfl fun y hy => ?_
  have hx' := Finset.mem_range.1 hx
  have hy' := Finset.mem_range.1 hy
  congr 1
  rw [show n + 2 - 1 = n + 1 from rfl]
  have z : ∀ φ : Vec K, unpad n false false (unpad (n + 1) false false (cre (n + 2) σ (n + 1) φ)) A B = 0 := by
    intro φ
    have := unpad_congr (n := n) false false (χ := fun _ _ => 0)
      (fun A hA B hB => unpad_cre (n := n + 1) σ false false φ hA hB (by cases σ <;> rfl)) hA hB
    rw [this, unpad_zero]
  have w1 : exc (n + 2) σ n y (pad (n + 1) (!σ) σ (pad n (!σ) σ ψ)) = fun _ _ => 0 := by
    unfold exc
    rw [ann_pad' σ σ _ (by omega), ann_pad' σ σ _ (by omega), pad_smul, cre_smul, cre_smul, cre_pad' σ σ _ (by omega), cre_full, pad_zero]
    funext A B; simp
  have w2 : exc (n + 2) σ x (n + 1) (exc (n + 2) σ y n (pad (n + 1) (!σ) σ (pad n (!σ) σ ψ))) =
      pad (n + 1) false false (pad n false false (cre n σ x (cre n σ y ψ))) := by
    unfold exc
    rw [ann_pad' σ σ _ (by omega), ann_dummy, cre_smul, cre_pad' σ σ _ (by omega), cre_empty _ _ hy', ann_smul, ann_smul, ann_dummy, cre_smul,
      cre_smul, cre_empty _ _ (by omega), cre_empty _ _ hx']
    funext A B; ring
  rw [w1, w2]
  have z1 : unpad n false false (unpad (n + 1) false false (exc (n + 2) σ x (n + 1) (fun _ _ => (0 : K)))) A B = 0 := by
    unfold exc
    rw [Ladder.ann_zero, cre_zero, show unpad (n + 1) false false (fun _ _ => (0 : K)) = fun _ _ => 0 from
      funext fun A => funext fun B => unpad_zero false false, unpad_zero]
  rw [z1, show ∀ p φ, exc (n + 2) σ (n + 1) p φ = cre (n + 2) σ (n + 1) (ann (n + 2) σ p φ) from fun _ _ => rfl, z,
    show ∀ p φ, exc (n + 2) σ (n + 1) p φ = cre (n + 2) σ (n + 1) (ann (n + 2) σ p φ) from fun _ _ => rfl, z]
  rw [unpad_congr false false (fun A hA B hB => unpad_pad (n := n + 1) false false _ hA hB) hA hB, unpad_pad _ _ _ hA hB]
  ring

/-- Two electrons of the same spin are annihilated. -/
theorem same_destroy {n A B : Nat} (σ : Bool) (op : M2 K) (ψ : Vec K) (hA : A < 2 ^ n) (hB : B < 2 ^ n) (g : Bool → Bool → M4 K)
    (hg : ∀ s t, g s t = if s = σ ∧ t = σ then pack (pairMat (fun p q => op q p) n 2) else fun _ _ _ _ => 0) :
    unpad n (!σ) σ (unpad (n + 1) (!σ) σ (twoE (n + 2) g (pad (n + 1) false false (pad n false false ψ)))) A B =
      pairAnn n σ σ op ψ A B := by
  rw [unpad_unpad_twoE, sum_spin]
  have e : ∀ W : Bool → Bool → Nat → Nat → Nat → Nat → K, (∑ s : Bool, ∑ t : Bool, ∑ p ∈ Finset.range (n + 2), ∑ q ∈ Finset.range (n + 2),
      ∑ r ∈ Finset.range (n + 2), ∑ u ∈ Finset.range (n + 2), g s t p q r u * W s t p q r u) =
      ∑ p ∈ Finset.range (n + 2), ∑ q ∈ Finset.range (n + 2), ∑ r ∈ Finset.range (n + 2), ∑ u ∈ Finset.range (n + 2),
        pack (pairMat (fun p q => op q p) n 2) p q r u * W σ σ p q r u := by
    intro W
    simp only [hg, Fintype.sum_bool]
    cases σ <;> simp
  rw [e, sum_pair (by omega), Finset.sum_comm]
  unfold pairAnn
  refine Finset.sum_congr rfl fun y hy => Finset.sum_congr rfl fun x hx => ?_
  have hx' := Finset.mem_range.1 hx
  have hy' := Finset.mem_range.1 hy
  congr 1
  rw [show n + 2 - 1 = n + 1 from rfl]
  have w1 : exc (n + 2) σ y n (pad (n + 1) false false (pad n false false ψ)) = fun _ _ => 0 := by
    unfold exc
    rw [ann_empty _ _ (by omega), ann_none, pad_zero, cre_zero]
  have w3 : exc (n + 2) σ n y (pad (n + 1) false false (pad n false false ψ)) = pad (n + 1) false false (pad n (!σ) σ (ann n σ y ψ)) := by
    unfold exc
    rw [ann_empty _ _ (by omega), ann_empty _ _ hy', cre_empty _ _ (by omega), cre_dummy]
  have w2 : exc (n + 2) σ (n + 1) x (exc (n + 2) σ n y (pad (n + 1) false false (pad n false false ψ))) =
      fun A B => (-1) * pad (n + 1) (!σ) σ (pad n (!σ) σ (ann n σ x (ann n σ y ψ))) A B := by
    rw [w3]
    unfold exc
    rw [ann_empty _ _ (by omega), ann_pad' σ σ _ hx', pad_smul, cre_smul, cre_dummy]
  have w4 : exc (n + 2) σ x (n + 1) (exc (n + 2) σ n y (pad (n + 1) false false (pad n false false ψ))) = fun _ _ => 0 := by
    rw [w3]
    unfold exc
    rw [ann_none, cre_zero]
  have z0 : ∀ p q, exc (n + 2) σ p q (fun _ _ => (0 : K)) = fun _ _ => 0 := by
    intro p q
    unfold exc
    rw [Ladder.ann_zero, cre_zero]
  have z1 : unpad n (!σ) σ (unpad (n + 1) (!σ) σ (fun _ _ => (0 : K))) A B = 0 := by
    rw [show unpad (n + 1) (!σ) σ (fun _ _ => (0 : K)) = fun _ _ => 0 from funext fun A => funext fun B => unpad_zero _ _, unpad_zero]
  rw [w2, w4, w1, z0, z0, z1]
  rw [unpad_congr (!σ) σ (χ := fun A B => (-1) * pad n (!σ) σ (ann n σ x (ann n σ y ψ)) A B) (fun A hA B hB => by
    rw [unpad_smul, unpad_pad _ _ _ hA hB]) hA hB, unpad_smul, unpad_pad _ _ _ hA hB, ann_comm n σ σ y x hy' hx']
  ring

/-- A spin-up and a spin-down electron are created. -/
theorem mixed_create [CharZero K] {n A B : Nat} (op : M2 K) (ψ : Vec K) (hA : A < 2 ^ n) (hB : B < 2 ^ n) :
    unpad n false false (twoE (n + 1) (fun s t p q r u => if s then (if t then 0 else pack (pairMat (fun p q => op p q * (1 / 2)) n 1) r u p q)
      else (if t then pack (pairMat (fun p q => op p q * (1 / 2)) n 1) p q r u else 0)) (pad n true true ψ)) A B =
      pairCre n false true op ψ A B := by
  rw [unpad_twoE, sum_spin]
  simp only [Fintype.sum_bool, if_true, Bool.false_eq_true, if_false, zero_mul, Finset.sum_const_zero, zero_add, add_zero]
  rw [show (∑ p ∈ Finset.range (n + 1), ∑ q ∈ Finset.range (n + 1), ∑ r ∈ Finset.range (n + 1), ∑ u ∈ Finset.range (n + 1),
      pack (pairMat (fun p q => op p q * (1 / 2)) n 1) r u p q * unpad n false false (exc (n + 1) true p q (exc (n + 1) false r u (pad n true true ψ))) A B) =
      ∑ p ∈ Finset.range (n + 1), ∑ q ∈ Finset.range (n + 1), ∑ r ∈ Finset.range (n + 1), ∑ u ∈ Finset.range (n + 1),
      pack (pairMat (fun p q => op p q * (1 / 2)) n 1) p q r u * unpad n false false (exc (n + 1) true r u (exc (n + 1) false p q (pad n true true ψ))) A B from by
    have := sum_pairs (n + 1) (fun p q r u (s t : Bool) => if s = false ∧ t = false then pack (pairMat (fun p q => op p q * (1 / 2)) n 1) r u p q *
      unpad n false false (exc (n + 1) true p q (exc (n + 1) false r u (pad n true true ψ))) A B else 0)
    simpa using this]
  rw [sum_pair (by omega), sum_pair (by omega), ← Finset.sum_add_distrib]
  unfold pairCre
  refine Finset.sum_congr rfl fun x hx => ?_
  rw [← Finset.sum_add_distrib]
  refine Finset.sum_congr rfl fun y hy => ?_
  have hx' := Finset.mem_range.1 hx
  have hy' := Finset.mem_range.1 hy
  rw [show n + 1 - 1 = n from rfl]
  have z : ∀ (s : Bool) (p : Nat) (φ : Vec K), unpad n false false (exc (n + 1) s n p φ) A B = 0 := fun s p φ =>
    unpad_cre s false false _ hA hB (by cases s <;> rfl)
  have w1 : ∀ (s : Bool) (p : Nat), p < n → exc (n + 1) s n p (pad n true true ψ) = fun _ _ => 0 := by
    intro s p hp
    unfold exc
    rw [ann_pad _ _ _ _ hp, cre_smul, cre_pad_full s true true _ (by cases s <;> rfl)]
    funext A B; simp
  have z0 : ∀ (s : Bool) p q, exc (n + 1) s p q (fun _ _ => (0 : K)) = fun _ _ => 0 := by
    intro s p q
    unfold exc
    rw [Ladder.ann_zero, cre_zero]
  have w2 : exc (n + 1) false x n (exc (n + 1) true y n (pad n true true ψ)) = pad n false false (cre n false x (cre n true y ψ)) := by
    unfold exc
    rw [ann_pad_down, cre_smul, cre_pad true true false _ hy', ann_smul, ann_smul, ann_pad_up, cre_smul, cre_smul, cre_empty _ _ hx']
    funext A B; simp
  have w3 : exc (n + 1) true y n (exc (n + 1) false x n (pad n true true ψ)) = fun A B => (-1) * pad n false false (cre n true y (cre n false x ψ)) A B := by
    unfold exc
    rw [ann_pad_up, cre_pad false false true _ hx', ann_smul, ann_pad_down, cre_smul, cre_smul, cre_empty _ _ hy']
    funext A B; simp
  rw [z, z, z, z, w1 true y hy', w1 false x hx', z0, z0, unpad_zero, w2, w3, unpad_smul, unpad_pad _ _ _ hA hB, unpad_pad _ _ _ hA hB,
    cre_comm n false true x y hx' hy']
  field_simp
  ring

/-- A spin-up and a spin-down electron are annihilated. -/
theorem mixed_destroy [CharZero K] {n A B : Nat} (op : M2 K) (ψ : Vec K) (hA : A < 2 ^ n) (hB : B < 2 ^ n) :
    unpad n true true (twoE (n + 1) (fun s t p q r u => if s then (if t then 0 else pack (pairMat (fun p q => op q p * (1 / 2)) n 1) r u p q)
      else (if t then pack (pairMat (fun p q => op q p * (1 / 2)) n 1) p q r u else 0)) (pad n false false ψ)) A B =
      pairAnn n false true op ψ A B := by
  rw [unpad_twoE, sum_spin]
  simp only [Fintype.sum_bool, if_true, Bool.false_eq_true, if_false, zero_mul, Finset.sum_const_zero, zero_add, add_zero]
  rw [show (∑ p ∈ Finset.range (n + 1), ∑ q ∈ Finset.range (n + 1), ∑ r ∈ Finset.range (n + 1), ∑ u ∈ Finset.range (n + 1),
      pack (pairMat (fun p q => op q p * (1 / 2)) n 1) r u p q * unpad n true true (exc (n + 1) true p q (exc (n + 1) false r u (pad n false false ψ))) A B) =
      ∑ p ∈ Finset.range (n + 1), ∑ q ∈ Finset.range (n + 1), ∑ r ∈ Finset.range (n + 1), ∑ u ∈ Finset.range (n + 1),
      pack (pairMat (fun p q => op q p * (1 / 2)) n 1) p q r u * unpad n true true (exc (n + 1) true r u (exc (n + 1) false p q (pad n false false ψ))) A B from by
    have := sum_pairs (n + 1) (fun p q r u (s t : Bool) => if s = false ∧ t = false then pack (pairMat (fun p q => op q p * (1 / 2)) n 1) r u p q *
      unpad n true true (exc (n + 1) true p q (exc (n + 1) false r u (pad n false false ψ))) A B else 0)
    simpa using this]
  rw [sum_pair (by omega), sum_pair (by omega), ← Finset.sum_add_distrib]
  unfold pairAnn
  rw [Finset.sum_comm (s := Finset.range n) (t := Finset.range n) (f := fun p q => op p q * ann n true p (ann n false q ψ) A B)]
  refine Finset.sum_congr rfl fun x hx => ?_
  rw [← Finset.sum_add_distrib]
  refine Finset.sum_congr rfl fun y hy => ?_
  have hx' := Finset.mem_range.1 hx
  have hy' := Finset.mem_range.1 hy
  rw [show n + 1 - 1 = n from rfl]
  have w1 : ∀ (s : Bool) (p : Nat), exc (n + 1) s p n (pad n false false ψ) = fun _ _ => 0 := by
    intro s p
    unfold exc
    rw [ann_none, cre_zero]
  have w4 : ∀ (s : Bool) (p : Nat), p < n → exc (n + 1) s n p (pad n false false ψ) = pad n (!s) s (ann n s p ψ) := by
    intro s p hp
    unfold exc
    rw [ann_empty _ _ hp, cre_dummy]
  have z0 : ∀ (s : Bool) p q, exc (n + 1) s p q (fun _ _ => (0 : K)) = fun _ _ => 0 := by
    intro s p q
    unfold exc
    rw [Ladder.ann_zero, cre_zero]
  have w5 : ∀ (s : Bool) (p : Nat) (φ : Vec K), exc (n + 1) s p n (pad n (!(!s)) (!s) φ) = fun _ _ => 0 := by
    intro s p φ
    unfold exc
    rw [ann_dummy_ne (by cases s <;> simp), cre_zero]
  have w2 : exc (n + 1) false n x (pad n false true (ann n true y ψ)) = fun A B => (-1) * pad n true true (ann n false x (ann n true y ψ)) A B := by
    unfold exc
    rw [ann_pad _ _ _ _ hx', cre_smul, cre_pad_up]
    funext A B; simp
  have w3 : exc (n + 1) true n y (pad n true false (ann n false x ψ)) = pad n true true (ann n true y (ann n false x ψ)) := by
    unfold exc
    rw [ann_pad _ _ _ _ hy', cre_smul, cre_pad_down]
    funext A B; simp
  rw [w1, w1, z0, z0, z0, z0, w4 true y hy', w4 false x hx']
  have w6 := w5 false x (ann n true y ψ)
  have w7 := w5 true y (ann n false x ψ)
  simp only [Bool.not_true, Bool.not_false] at w6 w7 ⊢
  rw [w6, w7, unpad_zero, w2, w3, unpad_smul, unpad_pad _ _ _ hA hB, unpad_pad _ _ _ hA hB, ann_comm n true false y x hy' hx']
  field_simp
  ring

end Verif.HalfOp
