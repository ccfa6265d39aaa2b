import Verif.Lemmas.FsuccGrad
/-!
# C69-C73: the factorized unitary coupled-cluster operator
-/
namespace Verif.Props
open Verif.Fsucc Verif.Spec.Fsucc Verif.FsuccOp Verif.Spec.FsuccOp

/-! ### C69 -/

theorem nodup_of_eraseDups {α : Type} [BEq α] [LawfulBEq α] (l : List α) (h : l.eraseDups.length = l.length) :
    l.Nodup := by
  have hle : ∀ n, ∀ l : List α, l.length ≤ n → l.eraseDups.length ≤ l.length := by
    intro n
    induction n with
    | zero => intro l hl; rw [List.length_eq_zero_iff.mp (Nat.le_zero.mp hl)]; simp
    | succ n ih =>
      intro l hl
      cases l with
      | nil => simp
      | cons a l =>
        rw [List.eraseDups_cons, List.length_cons, List.length_cons]
        have h1 := List.length_filter_le (fun b => !b == a) l
        have h2 := ih (l.filter fun b => !b == a) (by simp at hl; omega)
        omega
  induction l with
  | nil => exact List.nodup_nil
  | cons a l ih =>
    rw [List.eraseDups_cons, List.length_cons, List.length_cons] at h
    have h1 := List.length_filter_le (fun b => !b == a) l
    have h2 := hle _ (l.filter fun b => !b == a) (Nat.le_refl _)
    have h3 : l.filter (fun b => !b == a) = l := List.filter_sublist.eq_of_length (by omega)
    rw [h3] at h
    rw [List.nodup_cons]
    refine ⟨fun hm => ?_, ih (by omega)⟩
    rw [← h3] at hm
    simp at hm

theorem mergeSort_eq_of_perm {x y : List Nat} (h : x.Perm y) : x.mergeSort = y.mergeSort := by
  apply List.Perm.eq_of_pairwise (le := fun a b => a ≤ b)
  · intro a b _ _ hab hba; omega
  · simpa using List.pairwise_mergeSort (le := fun a b : Nat => decide (a ≤ b)) (by intro a b c; simp; omega)
      (by intro a b; simp; omega) x
  · simpa using List.pairwise_mergeSort (le := fun a b : Nat => decide (a ≤ b)) (by intro a b c; simp; omega)
      (by intro a b; simp; omega) y
  · exact ((List.mergeSort_perm _ _).trans h).trans (List.mergeSort_perm _ _).symm

/-- C69. Generators that pass the constructor's assertions have in-range, repetition-free strings that are not
rearrangements of each other. -/
theorem C69_sane {norb : Nat} {gens : List Gen} (h : sane norb (gens.map fun g => (g.a, g.i)) = true) :
    GensOK norb gens := by
  intro g hg
  unfold sane at h
  rw [Bool.and_eq_true] at h
  have h1 := (List.all_eq_true.mp h.1) (g.a, g.i) (List.mem_map_of_mem hg)
  simp only [Bool.and_eq_true, Bool.or_eq_true, Bool.not_eq_true', List.all_eq_true, decide_eq_true_eq,
    List.mem_append, Bool.and_eq_false_iff, beq_eq_false_iff_ne] at h1
  obtain ⟨⟨⟨⟨h2, h3⟩, h4⟩, h5⟩, h6⟩ := h1
  refine ⟨fun x hx => h3 x (Or.inr hx), fun x hx => h3 x (Or.inl hx), ?_, ?_, ?_⟩
  · rw [List.nodup_iff_count_le_one]
    intro x
    by_cases hx : x ∈ g.a
    · have := h4 x hx; omega
    · rw [List.count_eq_zero_of_not_mem hx]; omega
  · rw [List.nodup_iff_count_le_one]
    intro x
    by_cases hx : x ∈ g.i
    · have := h5 x hx; omega
    · rw [List.count_eq_zero_of_not_mem hx]; omega
  · intro hp
    rcases h6 with (h6 | h6) | h6
    · rw [List.isEmpty_iff] at h6
      rw [h6] at hp h2
      rw [List.nil_perm.mp hp] at h2
      simp at h2
    · rw [List.isEmpty_iff] at h6
      rw [h6] at hp h2
      rw [List.perm_nil.mp hp] at h2
      simp at h2
    · exact h6 (mergeSort_eq_of_perm hp)

/-- C69. No generator that passes the assertions repeats another one up to reordering within its strings or exchange
of the strings. -/
theorem C69_no_duplicates {norb : Nat} {gens : List Gen} (h : sane norb (gens.map fun g => (g.a, g.i)) = true)
    {k l : Nat} {g g' : Gen} (hk : gens[k]? = some g) (hl : gens[l]? = some g') (hne : k ≠ l) :
    ¬ (g.a.Perm g'.a ∧ g.i.Perm g'.i) ∧ ¬ (g.a.Perm g'.i ∧ g.i.Perm g'.a) := by
  unfold sane at h
  rw [Bool.and_eq_true] at h
  have h1 := h.2
  simp only [beq_iff_eq] at h1
  have hN := nodup_of_eraseDups _ h1
  rw [List.map_map] at hN
  rw [List.nodup_iff_injective_getElem] at hN
  obtain ⟨lk, ek⟩ := List.getElem?_eq_some_iff.mp hk
  obtain ⟨ll, el⟩ := List.getElem?_eq_some_iff.mp hl
  have hinj : ∀ (_ : (if List.lex g.a.mergeSort g.i.mergeSort then (g.a.mergeSort, g.i.mergeSort)
      else (g.i.mergeSort, g.a.mergeSort)) = (if List.lex g'.a.mergeSort g'.i.mergeSort
      then (g'.a.mergeSort, g'.i.mergeSort) else (g'.i.mergeSort, g'.a.mergeSort))), False := by
    intro he
    apply hne
    have := @hN ⟨k, by simpa using lk⟩ ⟨l, by simpa using ll⟩ (by
      simp only [List.getElem_map, Function.comp, ek, el]
      exact he)
    simpa using this
  refine ⟨fun ⟨p1, p2⟩ => hinj ?_, fun ⟨p1, p2⟩ => hinj ?_⟩
  · rw [mergeSort_eq_of_perm p1, mergeSort_eq_of_perm p2]
  · rw [mergeSort_eq_of_perm p1, mergeSort_eq_of_perm p2]
    simp only [List.lex_eq_true_iff_lt]
    rcases lt_trichotomy g'.i.mergeSort g'.a.mergeSort with hlt | heq | hgt
    · rw [if_pos hlt, if_neg (lt_asymm hlt)]
    · rw [heq]
    · rw [if_neg (lt_asymm hgt), if_pos hgt]

/-- C69. Applying the operator and then its transpose restores the vector. -/
theorem C69_restore {norb : Nat} {gens : List Gen} (h : sane norb (gens.map fun g => (g.a, g.i)) = true)
    (φ : Nat → ℝ) :
    call true norb gens true (call true norb gens false φ) = φ ∧
    call true norb gens false (call true norb gens true φ) = φ := by
  have hG := C69_sane h
  rw [call_eq, call_eq, call_eq, call_eq, genFac_reverse]
  exact ⟨foldl_inv' hG _ _, foldl_inv hG _ _⟩

/-- C69. The operator preserves inner products, and its transpose is its adjoint. -/
theorem C69_unitary {norb : Nat} {gens : List Gen} (h : sane norb (gens.map fun g => (g.a, g.i)) = true)
    (φ χ : Nat → ℝ) :
    ∑ D ∈ Finset.range (2 ^ norb), call true norb gens false φ D * call true norb gens false χ D =
      ∑ D ∈ Finset.range (2 ^ norb), φ D * χ D ∧
    ∑ D ∈ Finset.range (2 ^ norb), call true norb gens false φ D * χ D =
      ∑ D ∈ Finset.range (2 ^ norb), φ D * call true norb gens true χ D := by
  have hG := C69_sane h
  have key : ∀ x y, dot norb (call true norb gens false x) y = dot norb x (call true norb gens true y) := by
    intro x y
    rw [call_eq, call_eq, genFac_reverse]
    exact foldl_adjoint hG _ _ _
  refine ⟨?_, ?_⟩
  · rw [← dot_eq, ← dot_eq, key, (C69_restore h χ).1]
  · rw [← dot_eq, ← dot_eq, key]

/-- The generators `3'2'10` and `2'0` on four orbitals. -/
noncomputable def sampleGens : List Gen := [⟨[3, 2], [1, 0], 1⟩, ⟨[2], [0], 2⟩]

theorem sampleGens_sane : sane 4 (sampleGens.map fun g => (g.a, g.i)) = true := by
  simp [sampleGens, sane, List.mergeSort, List.MergeSort.Internal.splitInTwo, List.merge, List.eraseDups_cons]
  decide

/-- C69 is false for arrays that are not C-contiguous `float64` (for instance `complex128`, `float32` or a strided
view): `__call__` then returns the vector unchanged, whatever the amplitudes. The identity operator is returned for a
generator whose rotation is not the identity. -/
theorem C69_dtype_violated : ¬ ∀ (norb : Nat) (gens : List Gen) (φ : Nat → ℝ) (contig : Bool),
    sane norb (gens.map fun g => (g.a, g.i)) = true → call contig norb gens false φ = call true norb gens false φ := by
  intro h
  have hs : sane 2 ([⟨[1], [0], Real.pi / 2⟩].map fun g : Gen => (g.a, g.i)) = true := by
    simp [sane, List.eraseDups_cons]
  have h1 := congrFun (h 2 [⟨[1], [0], Real.pi / 2⟩] (fun D => if D = 1 then 1 else 0) false hs) 1
  have e : iterations 2 [1] [0] = 1 := by decide
  have e2 : pairOf 2 1 2 0 = (1, 2) := by decide
  simp [call, genFac, op1uInplace, op1u, contract1u, contract1, detOf, e, iter, e2, mixdetu] at h1

/-! ### C70 -/

/-- C70. `get_deriv1` returns the derivative of the transformed vector with respect to the amplitude of the chosen
generator, for the operator and for its transpose. -/
theorem C70_derivative {norb : Nat} {gens : List Gen} (h : sane norb (gens.map fun g => (g.a, g.i)) = true)
    (tr : Bool) {k : Nat} {g : Gen} (hk : gens[k]? = some g) (φ : Nat → ℝ) :
    ∃ dφ cache, getDeriv1 norb gens φ k tr none true = some (dφ, cache) ∧
      ∀ D < 2 ^ norb, HasDerivAt (fun t => call true norb (setAmp gens k t) tr φ D) (dφ D) g.amp := by
  obtain ⟨lk, _⟩ := List.getElem?_eq_some_iff.mp hk
  obtain ⟨l1, l2, e, h1, h2⟩ := genFac_split gens.length k lk tr
  refine ⟨l2.foldl (step norb gens tr) (op1u norb g tr true (projaiPy norb g (l1.foldl (step norb gens tr) φ))),
    some (l1.foldl (step norb gens tr) φ), ?_, call_deriv (C69_sane h) tr hk φ e h1 h2⟩
  unfold getDeriv1
  rw [if_neg (by simp), e, derivLoop_eq norb gens k tr true l1 l2 g hk h1 h2]
  simp

example : sane 4 (sampleGens.map fun g => (g.a, g.i)) = true ∧ sampleGens[1]? = some ⟨[2], [0], 2⟩ :=
  ⟨sampleGens_sane, rfl⟩

/-! ### C71 -/

/-- C71. `gen_deriv1` yields, in generator order, the same vectors as one `get_deriv1` call per generator. -/
theorem C71_forward {norb : Nat} {gens : List Gen} (full : Bool) (φ : Nat → ℝ) :
    ∃ l, genDeriv1 norb gens false full φ = some l ∧ l.length = gens.length ∧
      ∀ k < gens.length, ∃ d cache, getDeriv1 norb gens φ k false none full = some (d, cache) ∧ l[k]? = some d := by
  refine ⟨_, genDeriv1_forward full φ, by simp, ?_⟩
  intro k hk
  refine ⟨_, _, getDeriv1_first full φ hk, ?_⟩
  rw [List.getElem?_map, List.getElem?_range hk]
  rfl

example : (sampleGens).length = 2 := rfl

/-- C71 is false for the transpose: with two or more generators the iteration raises `RuntimeError`, although each
`get_deriv1 (transpose=True)` call succeeds. -/
theorem C71_transpose_violated : ¬ ∀ (norb : Nat) (gens : List Gen) (full : Bool) (φ : Nat → ℝ),
    sane norb (gens.map fun g => (g.a, g.i)) = true → ∃ l, genDeriv1 norb gens true full φ = some l := by
  intro h
  obtain ⟨l, hl⟩ := h 4 sampleGens true (fun _ => 0) sampleGens_sane
  rw [genDeriv1_transpose_raises _ _ (by simp [sampleGens])] at hl
  exact absurd hl (by simp)

/-! ### C72 -/

/-- C72. The gradient returned by the UCC objective function is the gradient of the energy it returns, for every
symmetric Hamiltonian. -/
theorem C72_gradient {norb : Nat} {gens : List Gen} (h : sane norb (gens.map fun g => (g.a, g.i)) = true)
    {hop : (Nat → ℝ) → (Nat → ℝ)} (hH : SymmetricMap norb hop) (φ : Nat → ℝ) :
    ∃ jac, objJac norb hop gens φ = some jac ∧ jac.length = gens.length ∧
      ∀ (k : Nat) (g : Gen), gens[k]? = some g → ∃ d, jac[k]? = some d ∧
        HasDerivAt (fun t => objE norb hop (setAmp gens k t) φ) d g.amp := by
  have hG := C69_sane h
  unfold objJac
  rw [genDeriv1_forward]
  refine ⟨_, rfl, by simp [genPartial_length], ?_⟩
  intro k g hk
  obtain ⟨lk, hgk⟩ := List.getElem?_eq_some_iff.mp hk
  have e := genFac_forward gens.length k lk
  set l2 := List.range' (k + 1) (gens.length - (k + 1)) with hl2
  have h1 : ∀ x ∈ List.range k, x < gens.length ∧ x ≠ k := by
    intro x hx; rw [List.mem_range] at hx; omega
  have h2 : ∀ x ∈ l2, x < gens.length ∧ x ≠ k := by
    intro x hx; rw [hl2, List.mem_range'_1] at hx; omega
  have hd := call_deriv hG false hk φ e h1 h2
  have hE := energy_deriv hH hd
  refine ⟨_, ?_, hE⟩
  have hset : setAmp gens k g.amp = gens := by
    apply List.ext_getElem?
    intro x
    rw [setAmp_getElem?]
    by_cases hx : x = k
    · rw [if_pos hx, hx, hk]; rfl
    · rw [if_neg hx]
  rw [hset]
  rw [List.getElem?_zipWith, List.getElem?_map, List.getElem?_range lk, genPartial_get _ _ lk, firstU_take _ lk]
  simp only [Option.map_some]
  congr 1
  congr 1
  unfold derivVec
  rw [hk]
  simp only [Bool.false_eq_true, if_false]
  -- the remaining factors move to the other side
  rw [foldl_adjoint hG l2]
  congr 1
  rw [call_eq norb gens true, genFac_reverse, e]
  unfold firstU
  rw [show List.range k ++ k :: l2 = List.range (k + 1) ++ l2 by rw [List.range_succ]; simp, List.reverse_append,
    List.foldl_append, foldl_inv hG]

/-- The hypotheses of C72 are met: the diagonal operator `D ↦ D ψ(D)` is symmetric. -/
example : sane 4 (sampleGens.map fun g => (g.a, g.i)) = true ∧ SymmetricMap 4 (fun ψ D => (D : ℝ) * ψ D) := by
  refine ⟨sampleGens_sane, fun D E => if D = E then (D : ℝ) else 0, ?_, ?_⟩
  · intro D E
    by_cases h : D = E
    · subst h; rfl
    · simp [h, Ne.symm h]
  · intro φ D hD
    simp only [ite_mul, zero_mul]
    rw [Finset.sum_ite_eq, if_pos (Finset.mem_range.mpr hD)]

/-! ### C73 -/

theorem hopOp_smul (norb k : Nat) (c : ℝ) (ht ψ : Nat → ℝ) (D : Nat) :
    hopOp norb k (fun x => c * ht x) ψ D = c * hopOp norb k ht ψ D := by
  unfold hopOp
  rw [Finset.mul_sum]
  exact Finset.sum_congr rfl fun _ _ => by ring

/-- C73. `_op1h_spinsym` applies `h0 + Σ_k 1/k! Σ h_k(p1q1,p2q2,…) Σ_spins p1'p2'…q2q1`. -/
theorem C73_operator (norb : Nat) (h0 : ℝ) (herm : List (Nat → ℝ)) (ψ : Nat → ℝ) {D : Nat} (hD : D < 2 ^ (2 * norb)) :
    op1h norb h0 herm ψ D = h0 * ψ D + hamTerms norb ψ herm 0 D := by
  have key : ∀ (l : List (Nat → ℝ)) (k : Nat) (hp : Nat → ℝ),
      op1hLoop norb ψ l k (1 / (Nat.factorial k : ℝ)) hp D = hp D + hamTerms norb ψ l k D := by
    intro l
    induction l with
    | nil => intro k hp; simp [op1hLoop, hamTerms]
    | cons ht l ih =>
      intro k hp
      have hf : (1 : ℝ) / (Nat.factorial k : ℝ) / ((k + 1 : Nat) : ℝ) = 1 / (Nat.factorial (k + 1) : ℝ) := by
        rw [Nat.factorial_succ, Nat.cast_mul, div_div, mul_comm]
      rw [op1hLoop, hamTerms]
      rw [hf, ih, C39_fullhop _ _ _ _ _ hD, hopOp_smul]
      ring
  unfold op1h
  have := key herm 0 (fun D => h0 * ψ D)
  simpa using this

theorem op1h_adjoint (norb : Nat) (h0 : ℝ) (herm : List (Nat → ℝ)) (φ χ : Nat → ℝ) :
    ∑ D ∈ Finset.range (2 ^ (2 * norb)), φ D * op1h norb h0 herm χ D =
      ∑ D ∈ Finset.range (2 ^ (2 * norb)), op1h norb h0 herm φ D * χ D := by
  have key : ∀ (l : List (Nat → ℝ)) (k : Nat),
      ∑ D ∈ Finset.range (2 ^ (2 * norb)), φ D * hamTerms norb χ l k D =
        ∑ D ∈ Finset.range (2 ^ (2 * norb)), hamTerms norb φ l k D * χ D := by
    intro l
    induction l with
    | nil => intro k; simp [hamTerms]
    | cons ht l ih =>
      intro k
      simp only [hamTerms, mul_add, add_mul, Finset.sum_add_distrib]
      rw [ih]
      congr 1
      have := hopOp_dot norb (k + 1) ht φ χ
      rw [Finset.sum_congr rfl fun D _ => show φ D * (1 / ((k + 1).factorial : ℝ) * hopOp norb (k + 1) ht χ D) =
          1 / ((k + 1).factorial : ℝ) * (φ D * hopOp norb (k + 1) ht χ D) by ring, ← Finset.mul_sum, this,
        Finset.mul_sum]
      exact Finset.sum_congr rfl fun _ _ => by ring
  have e1 : ∀ x y : Nat → ℝ, ∑ D ∈ Finset.range (2 ^ (2 * norb)), x D * op1h norb h0 herm y D =
      ∑ D ∈ Finset.range (2 ^ (2 * norb)), x D * (h0 * y D + hamTerms norb y herm 0 D) := by
    intro x y
    exact Finset.sum_congr rfl fun D hD => by rw [C73_operator norb h0 herm y (Finset.mem_range.mp hD)]
  have e2 : ∑ D ∈ Finset.range (2 ^ (2 * norb)), op1h norb h0 herm φ D * χ D =
      ∑ D ∈ Finset.range (2 ^ (2 * norb)), (h0 * φ D + hamTerms norb φ herm 0 D) * χ D :=
    Finset.sum_congr rfl fun D hD => by rw [C73_operator norb h0 herm φ (Finset.mem_range.mp hD)]
  rw [e1, e2]
  simp only [mul_add, add_mul, Finset.sum_add_distrib]
  rw [key]
  congr 1
  exact Finset.sum_congr rfl fun _ _ => by ring

/-- C73. That operator is a symmetric matrix, so C72 applies to it. -/
theorem C73_symmetric (norb : Nat) (h0 : ℝ) (herm : List (Nat → ℝ)) : SymmetricMap (2 * norb) (op1h norb h0 herm) := by
  classical
  let δ : Nat → Nat → ℝ := fun E x => if x = E then 1 else 0
  have hL : ∀ (φ : Nat → ℝ) (E : Nat), E < 2 ^ (2 * norb) →
      ∑ x ∈ Finset.range (2 ^ (2 * norb)), δ E x * φ x = φ E := by
    intro φ E hE
    simp only [δ, ite_mul, one_mul, zero_mul]
    rw [Finset.sum_ite_eq' (Finset.range (2 ^ (2 * norb))) E φ, if_pos (Finset.mem_range.mpr hE)]
  have hR : ∀ φ (E : Nat), E < 2 ^ (2 * norb) → op1h norb h0 herm φ E =
      ∑ x ∈ Finset.range (2 ^ (2 * norb)), op1h norb h0 herm (δ E) x * φ x := by
    intro φ E hE
    rw [← op1h_adjoint, hL _ E hE]
  refine ⟨fun D E => if D < 2 ^ (2 * norb) ∧ E < 2 ^ (2 * norb) then op1h norb h0 herm (δ D) E else 0, ?_, ?_⟩
  · intro D E
    beta_reduce
    by_cases h : D < 2 ^ (2 * norb) ∧ E < 2 ^ (2 * norb)
    · rw [if_pos h, if_pos ⟨h.2, h.1⟩, hR (δ D) E h.2, ← hL (op1h norb h0 herm (δ E)) D h.1]
      exact Finset.sum_congr rfl fun _ _ => mul_comm _ _
    · rw [if_neg h, if_neg (fun h' => h ⟨h'.2, h'.1⟩)]
  · intro φ D hD
    rw [hR φ D hD]
    apply Finset.sum_congr rfl
    intro E hE
    beta_reduce
    rw [if_pos ⟨hD, Finset.mem_range.mp hE⟩]

/-- C73 and C72 together: the analytic gradient of the UCC energy of a molecular Hamiltonian. -/
example (h0 : ℝ) (h1 h2 φ : Nat → ℝ) : ∃ jac, objJac (2 * 2) (op1h 2 h0 [h1, h2]) sampleGens φ = some jac ∧
    jac.length = 2 := by
  obtain ⟨jac, h1, h2, _⟩ := C72_gradient (norb := 2 * 2) sampleGens_sane (C73_symmetric 2 h0 [h1, h2]) φ
  exact ⟨jac, h1, h2⟩

example : tri 1 0 = 1 ∧ (2 : Nat) ^ (2 * 2) = 16 := by decide

end Verif.Props
