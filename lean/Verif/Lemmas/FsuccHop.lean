import Verif.Lemmas.FsuccContract
import Mathlib.Algebra.BigOperators.Fin
import Mathlib.Data.Fintype.BigOperators
import Mathlib.Tactic.FieldSimp
import Mathlib.Tactic.Abel
import Mathlib.Algebra.BigOperators.Ring.Finset
/-!
# Lemmas on FSUCCfullhop and FSUCCcontractS2
-/
namespace Verif.Fsucc
open Verif.Spec.Fsucc

variable {K : Type}

/-! ### Triangular indices -/

theorem tri_succ (n : Nat) : (n + 1) * (n + 1 + 1) / 2 = n * (n + 1) / 2 + (n + 1) := by
  have : (n + 1) * (n + 1 + 1) = n * (n + 1) + 2 * (n + 1) := by ring
  rw [this]
  omega

theorem triLoop_eq (m p q fuel : Nat) (hq : q ≤ p + m) (hf : m ≤ fuel) :
    triLoop fuel p ((p + m) * (p + m + 1) / 2 - p * (p + 1) / 2 + q) = (p + m, q) := by
  induction m generalizing p fuel with
  | zero =>
    have h0 : (p + 0) * (p + 0 + 1) / 2 - p * (p + 1) / 2 + q = q := by simp
    rw [h0]
    cases fuel with
    | zero => rfl
    | succ f => rw [triLoop, if_neg (by omega)]; rfl
  | succ m ih =>
    obtain ⟨f, rfl⟩ : ∃ f, fuel = f + 1 := ⟨fuel - 1, by omega⟩
    have hmono : ∀ k, p * (p + 1) / 2 + (p + 1) ≤ (p + 1 + k) * (p + 1 + k + 1) / 2 := by
      intro k
      induction k with
      | zero => rw [Nat.add_zero, tri_succ]
      | succ k ihk => have := tri_succ (p + 1 + k); rw [← Nat.add_assoc (p + 1) k 1]; omega
    have h1 := hmono m
    rw [triLoop]
    have e : p + (m + 1) = p + 1 + m := by omega
    rw [e] at hq ⊢
    have h2 := tri_succ p
    rw [if_pos (by omega)]
    have := ih (p + 1) f hq (by omega)
    rw [h2] at this
    rw [← this]
    congr 1
    omega

theorem le_tri (n : Nat) : n ≤ n * (n + 1) / 2 := by
  induction n with
  | zero => simp
  | succ n ih => rw [tri_succ]; omega

theorem unpackTri_eq {p q : Nat} (h : q ≤ p) : unpackTri (p * (p + 1) / 2 + q) = (p, q) := by
  have := triLoop_eq p 0 q (p * (p + 1) / 2 + q) (by omega) (by have := le_tri p; omega)
  simpa [unpackTri] using this

theorem unpackTri_lt {n pq : Nat} (h : pq < n * (n + 1) / 2) :
    ∃ p q, q ≤ p ∧ p < n ∧ pq = p * (p + 1) / 2 + q := by
  induction n with
  | zero => simp at h
  | succ n ih =>
    by_cases h' : pq < n * (n + 1) / 2
    · obtain ⟨p, q, h1, h2, h3⟩ := ih h'
      exact ⟨p, q, h1, by omega, h3⟩
    · rw [tri_succ] at h
      exact ⟨n, pq - n * (n + 1) / 2, by omega, by omega, by omega⟩

theorem sum_range_list {M : Type} [AddCommMonoid M] (n : Nat) (f : Nat → M) :
    ((List.range n).map f).sum = ∑ x ∈ Finset.range n, f x := by
  induction n with
  | zero => simp
  | succ n ih => rw [List.range_succ, List.map_append, List.sum_append, ih, Finset.sum_range_succ]; simp

theorem sum_tri {M : Type} [AddCommMonoid M] (n : Nat) (h : Nat → Nat → Nat → M) :
    ((List.range (n * (n + 1) / 2)).map fun pq =>
      ((if (unpackTri pq).1 = (unpackTri pq).2 then [unpackTri pq] else
        [unpackTri pq, ((unpackTri pq).2, (unpackTri pq).1)]).map fun x => h x.1 x.2 pq).sum).sum =
      ∑ p ∈ Finset.range n, ∑ q ∈ Finset.range n, h p q (tri p q) := by
  rw [sum_range_list]
  induction n with
  | zero => simp
  | succ n ih =>
    rw [tri_succ, Finset.sum_range_add, ih]
    have h1 : ∀ q < n, ((if (unpackTri (n * (n + 1) / 2 + q)).1 = (unpackTri (n * (n + 1) / 2 + q)).2 then
        [unpackTri (n * (n + 1) / 2 + q)] else [unpackTri (n * (n + 1) / 2 + q),
          ((unpackTri (n * (n + 1) / 2 + q)).2, (unpackTri (n * (n + 1) / 2 + q)).1)]).map
        fun x => h x.1 x.2 (n * (n + 1) / 2 + q)).sum = h n q (tri n q) + h q n (tri q n) := by
      intro q hq
      rw [unpackTri_eq (by omega), if_neg (by simp; omega)]
      simp [tri, Nat.max_eq_left hq.le, Nat.min_eq_right hq.le, Nat.max_eq_right hq.le, Nat.min_eq_left hq.le]
    rw [Finset.sum_range_succ (n := n), Finset.sum_congr rfl (fun q hq => h1 q (Finset.mem_range.mp hq)),
      unpackTri_eq (le_refl n)]
    rw [Finset.sum_range_succ (n := n)]
    simp only [Finset.sum_range_succ, Finset.sum_add_distrib, if_true, List.map_cons, List.map_nil, List.sum_cons,
      List.sum_nil, add_zero]
    simp only [tri, max_self, min_self]
    abel

theorem sum_flatMap {M α β : Type} [AddCommMonoid M] (l : List α) (f : α → List β) (v : β → M) :
    ((l.flatMap f).map v).sum = (l.map fun x => ((f x).map v).sum).sum := by
  induction l with
  | nil => simp
  | cons x l ih => rw [List.flatMap_cons, List.map_append, List.sum_append, ih]; simp

theorem rowMajor_aux (n : Nat) (l : List Nat) (b : Nat) :
    l.foldl (fun acc x => acc * n + x) b = b * n ^ l.length + rowMajor n l := by
  induction l generalizing b with
  | nil => simp [rowMajor]
  | cons x l ih =>
    have h0 := ih (0 * n + x)
    rw [rowMajor, List.foldl_cons, List.foldl_cons, ih, h0, List.length_cons, pow_succ]
    ring

theorem rowMajor_cons (n x : Nat) (l : List Nat) : rowMajor n (x :: l) = x * n ^ l.length + rowMajor n l := by
  rw [rowMajor, List.foldl_cons, rowMajor_aux]; simp

/-- The sum of a function over the calls made by the recursion. -/
theorem calls_sum {M : Type} [AddCommMonoid M] (norb : Nat) (v : List Nat × List Nat × Nat → M) (k : Nat)
    (ps qs : List Nat) (base : Nat) :
    ((fullhopCalls norb (k + 1) ps qs base).map v).sum =
      ∑ t : Fin (k + 1) → Fin norb × Fin norb × Fin 2,
        v (ps ++ List.ofFn (fun j => ((t j).1 : Nat) + (t j).2.2 * norb),
          qs ++ List.ofFn (fun j => ((t j).2.1 : Nat) + (t j).2.2 * norb),
          base + rowMajor (norb * (norb + 1) / 2) (List.ofFn fun j => tri (t j).1 (t j).2.1)) := by
  induction k generalizing ps qs base with
  | zero =>
    rw [fullhopCalls]
    simp only [sum_flatMap, lt_irrefl, if_false, List.map_cons, List.map_nil, List.sum_cons,
      List.sum_nil, add_zero]
    have := sum_tri norb (fun p q pq => ((List.range 2).map fun spin =>
      v (ps ++ [p + spin * norb], qs ++ [q + spin * norb], base + pq)).sum)
    refine this.trans ?_
    rw [← (Equiv.funUnique (Fin 1) (Fin norb × Fin norb × Fin 2)).symm.sum_comp]
    simp only [Fintype.sum_prod_type, sum_range_list, Finset.sum_range]
    simp [rowMajor, List.ofFn_succ, Finset.sum_range, Equiv.funUnique]
  | succ k ih =>
    rw [fullhopCalls]
    simp only [sum_flatMap, Nat.zero_lt_succ, if_true, ih]
    have := sum_tri norb (fun p q pq => ((List.range 2).map fun spin =>
      ∑ t : Fin (k + 1) → Fin norb × Fin norb × Fin 2,
        v (ps ++ [p + spin * norb] ++ List.ofFn (fun j => ((t j).1 : Nat) + (t j).2.2 * norb),
          qs ++ [q + spin * norb] ++ List.ofFn (fun j => ((t j).2.1 : Nat) + (t j).2.2 * norb),
          base + pq * (norb * (norb + 1) / 2) ^ (k + 1) +
            rowMajor (norb * (norb + 1) / 2) (List.ofFn fun j => tri (t j).1 (t j).2.1))).sum)
    refine this.trans ?_
    rw [← (Fin.consEquiv (fun _ : Fin (k + 2) => Fin norb × Fin norb × Fin 2)).sum_comp]
    simp only [Fintype.sum_prod_type, sum_range_list, Finset.sum_range]
    refine Finset.sum_congr rfl fun p _ => Finset.sum_congr rfl fun q _ => Finset.sum_congr rfl fun s _ =>
      Finset.sum_congr rfl fun t _ => ?_
    simp [List.ofFn_succ, Fin.consEquiv, rowMajor_cons, Nat.add_assoc]

end Verif.Fsucc
