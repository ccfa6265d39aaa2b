import Verif.Lemmas.FsuccOp
import Mathlib.Analysis.Calculus.Deriv.Linear
import Mathlib.Analysis.Calculus.FDeriv.Add
import Mathlib.Tactic.Linarith
/-!
# Lemmas on the derivative generators and the gradient
-/
namespace Verif.FsuccOp
open Verif.Fsucc Verif.Spec.Fsucc Verif.Spec.FsuccOp Verif.Props

variable {norb : Nat} {gens : List Gen}

/-- The first `k` factors. -/
noncomputable def firstU (norb : Nat) (gens : List Gen) (k : Nat) (ψ : Nat → ℝ) : Nat → ℝ :=
  (List.range k).foldl (step norb gens false) ψ

/-- The vector yielded for generator `k`. -/
noncomputable def derivVec (norb : Nat) (gens : List Gen) (full : Bool) (ψ : Nat → ℝ) (k : Nat) : Nat → ℝ :=
  match gens[k]? with
  | none => ψ
  | some g =>
    if full then (List.range' (k + 1) (gens.length - (k + 1))).foldl (step norb gens false)
        (op1u norb g false true (projaiPy norb g (firstU norb gens k ψ)))
    else op1u norb g false true (projaiPy norb g (firstU norb gens k ψ))

theorem firstU_succ (k : Nat) (ψ : Nat → ℝ) :
    firstU norb gens (k + 1) ψ = step norb gens false (firstU norb gens k ψ) k := by
  unfold firstU; rw [List.range_succ, List.foldl_append]; rfl

theorem getDeriv1_first (full : Bool) (ψ : Nat → ℝ) {k : Nat} (hk : k < gens.length) :
    getDeriv1 norb gens ψ k false none full = some (derivVec norb gens full ψ k, some (firstU norb gens k ψ)) := by
  unfold getDeriv1
  rw [if_neg (by simp)]
  have e : genFac gens.length false none = List.range k ++ k :: List.range' (k + 1) (gens.length - (k + 1)) := by
    simp only [genFac, Option.getD, Bool.false_eq_true, if_false, Nat.sub_zero]
    have h1 : List.range' 0 gens.length = List.range' 0 k ++ List.range' (0 + k) (gens.length - k) := by
      rw [List.range'_append_1]; congr 1; omega
    rw [h1, List.range_eq_range', show gens.length - k = (gens.length - (k + 1)) + 1 by omega, Nat.zero_add,
      List.range'_succ]
  rw [e, derivLoop_eq norb gens k false full _ _ gens[k] (List.getElem?_eq_getElem hk)
    (by intro x hx; rw [List.mem_range] at hx; omega) (by intro x hx; rw [List.mem_range'_1] at hx; omega)]
  unfold derivVec
  rw [List.getElem?_eq_getElem hk]
  rfl

theorem getDeriv1_next (full : Bool) (ψ : Nat → ℝ) {k : Nat} (hk : k + 1 < gens.length) :
    getDeriv1 norb gens (firstU norb gens k ψ) (k + 1) false (some k) full =
      some (derivVec norb gens full ψ (k + 1), some (firstU norb gens (k + 1) ψ)) := by
  unfold getDeriv1
  rw [if_neg (by simp)]
  have e : genFac gens.length false (some k) = [k] ++ (k + 1) :: List.range' (k + 1 + 1) (gens.length - (k + 1 + 1)) := by
    simp only [genFac, Option.getD, Bool.false_eq_true, if_false]
    rw [show gens.length - k = (gens.length - (k + 1 + 1)) + 1 + 1 by omega, List.range'_succ, List.range'_succ]
    rfl
  rw [e, derivLoop_eq norb gens (k + 1) false full _ _ gens[k + 1] (List.getElem?_eq_getElem hk)
    (by intro x hx; rw [List.mem_singleton] at hx; omega) (by intro x hx; rw [List.mem_range'_1] at hx; omega)]
  simp only [List.foldl_cons, List.foldl_nil]
  unfold derivVec
  rw [List.getElem?_eq_getElem hk]
  rw [← firstU_succ]

theorem genDeriv1Loop_next (full : Bool) (ψ : Nat → ℝ) (m k : Nat) (h : k + 1 + m = gens.length) :
    genDeriv1Loop norb gens false full (List.range' (k + 1) m) (firstU norb gens k ψ) (some k) =
      some ((List.range' (k + 1) m).map (derivVec norb gens full ψ)) := by
  induction m generalizing k with
  | zero => simp [genDeriv1Loop]
  | succ m ih =>
    rw [List.range'_succ, genDeriv1Loop, getDeriv1_next full ψ (by omega)]
    simp only [Option.getD]
    rw [ih (k + 1) (by omega)]
    simp

theorem genDeriv1_forward (full : Bool) (ψ : Nat → ℝ) :
    genDeriv1 norb gens false full ψ = some ((List.range gens.length).map (derivVec norb gens full ψ)) := by
  unfold genDeriv1
  simp only [Bool.false_eq_true, if_false]
  cases h : gens.length with
  | zero => simp [genDeriv1Loop]
  | succ n =>
    rw [List.range_eq_range', List.range'_succ, genDeriv1Loop, getDeriv1_first full ψ (by omega)]
    simp only [Option.getD, Nat.zero_add]
    rw [genDeriv1Loop_next full ψ n 0 (by omega)]
    simp

/-- The transposed generator raises at its second step. -/
theorem genDeriv1_transpose_raises (full : Bool) (ψ : Nat → ℝ) (h : 2 ≤ gens.length) :
    genDeriv1 norb gens true full ψ = none := by
  unfold genDeriv1
  simp only [if_true]
  obtain ⟨n, hn⟩ : ∃ n, gens.length = n + 2 := ⟨gens.length - 2, by omega⟩
  rw [hn, List.range_succ, List.range_succ]
  simp only [List.reverse_append, List.reverse_cons, List.reverse_nil, List.nil_append, List.cons_append,
    List.append_assoc, List.singleton_append]
  rw [genDeriv1Loop]
  cases getDeriv1 norb gens ψ (n + 1) true none full with
  | none => rfl
  | some p =>
    obtain ⟨du, c⟩ := p
    simp only
    rw [genDeriv1Loop]
    have : getDeriv1 norb gens (c.getD ψ) n true (some (n + 1)) full = none := by
      unfold getDeriv1; rw [if_pos (by simp)]
    rw [this]

/-! ### Gradient -/

theorem step_adjoint (hG : GensOK norb gens) (x y : Nat → ℝ) (k : Nat) :
    dot norb (step norb gens false x k) y = dot norb x (step norb gens true y k) := by
  unfold step
  cases h : gens[k]? with
  | none => rfl
  | some g =>
    simp only [op1u_ff, op1u_tf]
    exact rot_adjoint (gensOK_mem hG (List.mem_of_getElem? h)) _ _ _

theorem foldl_adjoint (hG : GensOK norb gens) (l : List Nat) (x y : Nat → ℝ) :
    dot norb (l.foldl (step norb gens false) x) y = dot norb x (l.reverse.foldl (step norb gens true) y) := by
  induction l generalizing x with
  | nil => rfl
  | cons k l ih =>
    rw [List.foldl_cons, ih, step_adjoint hG, List.reverse_cons, List.foldl_append]
    rfl

theorem step_inv (hG : GensOK norb gens) (x : Nat → ℝ) (k : Nat) :
    step norb gens false (step norb gens true x k) k = x ∧ step norb gens true (step norb gens false x k) k = x := by
  unfold step
  cases h : gens[k]? with
  | none => exact ⟨rfl, rfl⟩
  | some g =>
    simp only [op1u_ff, op1u_tf]
    have hg := gensOK_mem hG (List.mem_of_getElem? h)
    exact ⟨rot_inv' hg _ _, rot_inv hg _ _⟩

theorem foldl_inv (hG : GensOK norb gens) (l : List Nat) (x : Nat → ℝ) :
    l.foldl (step norb gens false) (l.reverse.foldl (step norb gens true) x) = x := by
  induction l generalizing x with
  | nil => rfl
  | cons k l ih =>
    rw [List.reverse_cons, List.foldl_append, List.foldl_cons]
    simp only [List.foldl_cons, List.foldl_nil]
    rw [(step_inv hG _ k).1, ih]

theorem foldl_inv' (hG : GensOK norb gens) (l : List Nat) (x : Nat → ℝ) :
    l.reverse.foldl (step norb gens true) (l.foldl (step norb gens false) x) = x := by
  induction l generalizing x with
  | nil => rfl
  | cons k l ih =>
    rw [List.reverse_cons, List.foldl_append]
    simp only [List.foldl_cons, List.foldl_nil]
    rw [ih]
    exact (step_inv hG _ k).2

theorem genPartial_get (ψ : Nat → ℝ) (gens : List Gen) {k : Nat} (hk : k < gens.length) :
    (genPartial norb gens ψ)[k]? = some ((gens.take (k + 1)).foldl (fun ψ g => op1u norb g false false ψ) ψ) := by
  induction gens generalizing ψ k with
  | nil => simp at hk
  | cons g l ih =>
    cases k with
    | zero => simp [genPartial]
    | succ k =>
      rw [genPartial, List.getElem?_cons_succ, ih _ (by simpa using hk)]
      simp

theorem firstU_take (ψ : Nat → ℝ) {k : Nat} (hk : k ≤ gens.length) :
    (gens.take k).foldl (fun ψ g => op1u norb g false false ψ) ψ = firstU norb gens k ψ := by
  induction k with
  | zero => rfl
  | succ k ih =>
    rw [firstU_succ, ← ih (by omega), List.take_succ, List.getElem?_eq_getElem (by omega), List.foldl_append]
    simp only [Option.toList_some, List.foldl_cons, List.foldl_nil, step]
    rw [List.getElem?_eq_getElem (by omega)]

theorem genPartial_length (ψ : Nat → ℝ) (gens : List Gen) : (genPartial norb gens ψ).length = gens.length := by
  induction gens generalizing ψ with
  | nil => rfl
  | cons g l ih => rw [genPartial, List.length_cons, ih, List.length_cons]

theorem genFac_forward (n k : Nat) (hk : k < n) :
    genFac n false none = List.range k ++ k :: List.range' (k + 1) (n - (k + 1)) := by
  simp only [genFac, Option.getD, Bool.false_eq_true, if_false, Nat.sub_zero]
  have h1 : List.range' 0 n = List.range' 0 k ++ List.range' (0 + k) (n - k) := by
    rw [List.range'_append_1]; congr 1; omega
  rw [h1, List.range_eq_range', show n - k = (n - (k + 1)) + 1 by omega, Nat.zero_add,
    List.range'_succ]

theorem genFac_reverse (n : Nat) : genFac n true none = (genFac n false none).reverse := by
  simp only [genFac, Option.getD, if_true, Bool.false_eq_true, if_false, Nat.sub_zero]
  rw [List.range_eq_range']

/-- The derivative of the energy of a symmetric operator. -/
theorem energy_deriv {hop : (Nat → ℝ) → (Nat → ℝ)} (hH : SymmetricMap norb hop) {u : ℝ → Nat → ℝ} {u' : Nat → ℝ}
    {x : ℝ} (hu : ∀ D < 2 ^ norb, HasDerivAt (fun t => u t D) (u' D) x) :
    HasDerivAt (fun t => dot norb (u t) (hop (u t))) (2 * dot norb u' (hop (u x))) x := by
  obtain ⟨h, hs, hh⟩ := hH
  have e : (fun t => dot norb (u t) (hop (u t))) = fun t => ∑ D ∈ Finset.range (2 ^ norb),
      u t D * ∑ E ∈ Finset.range (2 ^ norb), h D E * u t E := by
    funext t
    rw [dot_eq]
    apply Finset.sum_congr rfl
    intro D hD
    rw [hh _ D (Finset.mem_range.mp hD)]
  rw [e]
  have hd : HasDerivAt (fun t => ∑ D ∈ Finset.range (2 ^ norb),
      u t D * ∑ E ∈ Finset.range (2 ^ norb), h D E * u t E)
      (∑ D ∈ Finset.range (2 ^ norb), (u' D * (∑ E ∈ Finset.range (2 ^ norb), h D E * u x E) +
        u x D * ∑ E ∈ Finset.range (2 ^ norb), h D E * u' E)) x := by
    apply HasDerivAt.fun_sum
    intro D hD
    rw [Finset.mem_range] at hD
    apply (hu D hD).mul
    apply HasDerivAt.fun_sum
    intro E hE
    rw [Finset.mem_range] at hE
    exact (hu E hE).const_mul _
  convert hd using 1
  rw [Finset.sum_add_distrib]
  have e2 : ∑ D ∈ Finset.range (2 ^ norb), u x D * ∑ E ∈ Finset.range (2 ^ norb), h D E * u' E =
      ∑ D ∈ Finset.range (2 ^ norb), u' D * ∑ E ∈ Finset.range (2 ^ norb), h D E * u x E := by
    simp only [Finset.mul_sum]
    rw [Finset.sum_comm]
    apply Finset.sum_congr rfl
    intro D _
    apply Finset.sum_congr rfl
    intro E _
    rw [hs E D]; ring
  rw [e2, ← two_mul]
  congr 1
  rw [dot_eq]
  apply Finset.sum_congr rfl
  intro D hD
  rw [hh _ D (Finset.mem_range.mp hD)]

/-! ### Hermiticity of the Hamiltonian -/

theorem excite_dot {a i : List Nat} (la : ∀ x ∈ a, x < norb) (li : ∀ x ∈ i, x < norb) (x y : Nat → ℝ) :
    ∑ D ∈ Finset.range (2 ^ norb), x D * excite norb a i y D =
      ∑ D ∈ Finset.range (2 ^ norb), excite norb i a x D * y D := by
  classical
  by_cases ha : a.Nodup
  · by_cases hi : i.Nodup
    · obtain ⟨dA, dI, k⟩ := exists_ctx ha hi la li
      have L : ∑ D ∈ Finset.range (2 ^ norb), x D * excite norb a i y D =
          ∑ D ∈ (Finset.range (2 ^ norb)).filter (fun D => Matches norb a i D), x D *
            ((-1) ^ (cnt norb a D + cnt norb i (pop i (pop a D))) * y (pop i (pop a D))) := by
        rw [Finset.sum_filter]
        apply Finset.sum_congr rfl
        intro D hD
        rw [excite_eq ha hi y (Finset.mem_range.mp hD)]
        split <;> simp
      have R : ∑ D ∈ Finset.range (2 ^ norb), excite norb i a x D * y D =
          ∑ D ∈ (Finset.range (2 ^ norb)).filter (fun D => Matches norb i a D),
            ((-1) ^ (cnt norb i D + cnt norb a (pop a (pop i D))) * x (pop a (pop i D))) * y D := by
        rw [Finset.sum_filter]
        apply Finset.sum_congr rfl
        intro D hD
        rw [excite_eq hi ha x (Finset.mem_range.mp hD)]
        split <;> simp
      rw [L, R]
      refine Finset.sum_bij' (fun D _ => pop i (pop a D)) (fun D _ => pop a (pop i D)) ?_ ?_ ?_ ?_ ?_
      · intro D hD
        rw [Finset.mem_filter] at hD ⊢
        obtain ⟨d, hd, rfl⟩ := k.ex2 hD.2
        rw [k.partner]
        exact ⟨Finset.mem_range.mpr (k.lt1 hd), k.m1 hd⟩
      · intro D hD
        rw [Finset.mem_filter] at hD ⊢
        obtain ⟨d, hd, rfl⟩ := k.ex1 hD.2
        rw [k.partner']
        exact ⟨Finset.mem_range.mpr (k.lt2 hd), k.m2 hd⟩
      · intro D hD
        rw [pop_pop, pop_pop]
      · intro D hD
        rw [pop_pop, pop_pop]
      · intro D hD
        rw [pop_pop, pop_pop, add_comm (cnt norb i _)]
        ring
    · simp only [excite_none_right hi, excite_none_left hi]; simp
  · simp only [excite_none_right ha, excite_none_left ha]; simp

theorem tri_comm (p q : Nat) : tri p q = tri q p := by
  unfold tri; rw [Nat.max_comm, Nat.min_comm]

theorem hopOp_dot (n k : Nat) (hop x y : Nat → ℝ) :
    ∑ D ∈ Finset.range (2 ^ (2 * n)), x D * hopOp n k hop y D =
      ∑ D ∈ Finset.range (2 ^ (2 * n)), hopOp n k hop x D * y D := by
  unfold hopOp
  simp only [Finset.mul_sum, Finset.sum_mul]
  rw [Finset.sum_comm, Finset.sum_comm (s := Finset.range (2 ^ (2 * n)))]
  let e : (Fin k → Fin n × Fin n × Fin 2) ≃ (Fin k → Fin n × Fin n × Fin 2) :=
    { toFun := fun t j => ((t j).2.1, (t j).1, (t j).2.2)
      invFun := fun t j => ((t j).2.1, (t j).1, (t j).2.2)
      left_inv := fun t => rfl
      right_inv := fun t => rfl }
  rw [← e.sum_comp]
  apply Finset.sum_congr rfl
  intro t _
  have ht : ∀ p : Fin n, ∀ s : Fin 2, (p : Nat) + s * n < 2 * n := by
    intro p s
    have h1 := p.isLt
    have h2 : (s : Nat) ≤ 1 := by omega
    have : (s : Nat) * n ≤ 1 * n := Nat.mul_le_mul_right _ h2
    omega
  have h1 : ∀ z ∈ List.ofFn (fun j => ((t j).2.1 : Nat) + (t j).2.2 * n), z < 2 * n := by
    intro z hz; rw [List.mem_ofFn] at hz; obtain ⟨j, rfl⟩ := hz; exact ht _ _
  have h2 : ∀ z ∈ List.ofFn (fun j => ((t j).1 : Nat) + (t j).2.2 * n), z < 2 * n := by
    intro z hz; rw [List.mem_ofFn] at hz; obtain ⟨j, rfl⟩ := hz; exact ht _ _
  have hd := excite_dot (norb := 2 * n) h1 h2 x y
  simp only [e, Equiv.coe_fn_mk]
  have ec : (List.ofFn fun j => tri (t j).2.1 (t j).1) = List.ofFn fun j => tri (t j).1 (t j).2.1 := by
    congr 1; funext j; exact tri_comm _ _
  rw [ec]
  generalize hop (rowMajor (n * (n + 1) / 2) (List.ofFn fun j => tri (t j).1 (t j).2.1)) = c
  rw [show (∑ D ∈ Finset.range (2 ^ (2 * n)), x D * (c * excite (2 * n)
      (List.ofFn fun j => ((t j).2.1 : Nat) + (t j).2.2 * n) (List.ofFn fun j => ((t j).1 : Nat) + (t j).2.2 * n) y D))
      = c * ∑ D ∈ Finset.range (2 ^ (2 * n)), x D * excite (2 * n)
      (List.ofFn fun j => ((t j).2.1 : Nat) + (t j).2.2 * n) (List.ofFn fun j => ((t j).1 : Nat) + (t j).2.2 * n) y D by
    rw [Finset.mul_sum]; exact Finset.sum_congr rfl fun _ _ => by ring]
  rw [hd, Finset.mul_sum]
  exact Finset.sum_congr rfl fun _ _ => by ring

end Verif.FsuccOp
