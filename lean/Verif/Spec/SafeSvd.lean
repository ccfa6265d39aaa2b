import Verif.Model.SafeSvd
import Verif.Spec.ImpSpace
/-!
# Specification for C129
-/
namespace Verif.Spec.SafeSvd

variable {K : Type} [Field K] [LinearOrder K]

/-- Orthonormal eigenvectors and eigenvalues of a matrix. -/
structure IsEigh (m : Nat) (a : Nat → Nat → K) (w : Nat → K) (u : Nat → Nat → K) : Prop where
  cols : ∀ p < m, ∀ q < m, ∑ j ∈ Finset.range m, u j p * u j q = if p = q then 1 else 0
  rows : ∀ p < m, ∀ q < m, ∑ j ∈ Finset.range m, u p j * u q j = if p = q then 1 else 0
  eig : ∀ i < m, ∀ k < m, ∑ j ∈ Finset.range m, a i j * u j k = w k * u i k

/-- Singular value from the eigenvalues of the two products with the opposite sign: the square root of their average. -/
def sigma (sqrt : K → K) (wu wv : Nat → K) (k : Nat) : K := sqrt (max (-(wu k + wv k) / 2) 0)

/-- Shapes of `u` and `vH` which `scipy.linalg.svd` returns. -/
def svdShapes (fullMatrices : Bool) (m n : Nat) : (Nat × Nat) × (Nat × Nat) :=
  if fullMatrices then ((m, m), (n, n)) else ((m, min m n), (min m n, n))

end Verif.Spec.SafeSvd
