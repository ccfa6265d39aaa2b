import Mathlib.Algebra.BigOperators.Group.Finset.Basic
import Mathlib.Algebra.Field.Defs
/-!
# Specification for C123: stored and generated CI vectors

A CI vector has `m` elements; vector `r` of a list is at the positions `r m … r m + m - 1` of a flat array.
-/
namespace Verif.Spec.InitGuess

variable {K : Type} [Field K]

/-- Overlap of vector `r` of one list and vector `s` of another. -/
def overlap (m : Nat) (a b : Nat → K) (r s : Nat) : K := ∑ x ∈ Finset.range m, a (r * m + x) * b (s * m + x)

/-- The first `n` vectors of both lists are the same. -/
def SameVectors (m n : Nat) (a b : Nat → K) : Prop := ∀ r < n, ∀ x < m, a (r * m + x) = b (r * m + x)

/-- `Q` is the orthogonal factor of a factorization `A = Q R` with an upper triangular matrix `R`, in dimension `n`. -/
def IsQR (n : Nat) (A Q : Nat → Nat → K) : Prop :=
  (∀ i < n, ∀ j < n, ∑ k ∈ Finset.range n, Q k i * Q k j = if i = j then 1 else 0) ∧
  ∃ R : Nat → Nat → K, (∀ i < n, ∀ j < i, R i j = 0) ∧
    ∀ i < n, ∀ j < n, A i j = ∑ k ∈ Finset.range n, Q i k * R k j

end Verif.Spec.InitGuess
