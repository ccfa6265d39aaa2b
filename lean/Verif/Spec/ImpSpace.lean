import Verif.Model.ImpSpace
import Mathlib.Algebra.Order.Field.Rat
/-!
# Specification for C128: impurity orbital spaces
-/
namespace Verif.Spec.ImpSpace
open Verif.ImpSpace

variable {K : Type} [Field K] [LinearOrder K]

/-- The orbitals are orthonormal. -/
def Orthonormal (n : Nat) (l : List (Orb K)) : Prop := l.Pairwise (fun v w => dot n v w = 0) ∧ ∀ v ∈ l, dot n v v = 1

/-- Matrix element of the projector onto the space of some orthonormal orbitals. -/
def proj (n : Nat) (l : List (Orb K)) (v w : Orb K) : K := (l.map fun z => dot n v z * dot n z w).sum

/-- The orbitals span the same space. -/
def SameSpace (n : Nat) (l l' : List (Orb K)) : Prop := ∀ v w, proj n l v w = proj n l' v w

/-- What an SVD consists of: the columns of `u` and the first rows of `vh` are orthonormal, and their product with the singular values is
the matrix. -/
structure IsSvd (m k : Nat) (a : Nat → Nat → K) (X : Svd K) : Prop where
  cols : ∀ p < m, ∀ q < m, ∑ j ∈ Finset.range m, X.u j p * X.u j q = if p = q then 1 else 0
  rows : ∀ p < m, ∀ q < m, ∑ j ∈ Finset.range m, X.u p j * X.u q j = if p = q then 1 else 0
  right : ∀ p < min m k, ∀ q < min m k, ∑ b ∈ Finset.range k, X.vh p b * X.vh q b = if p = q then 1 else 0
  prod : ∀ i < m, ∀ b < k, a i b = ∑ p ∈ Finset.range (min m k), X.u i p * X.s p * X.vh p b

/-- Squared norm of the gradient between an orbital and the fragment orbitals. -/
def gradSq (n : Nat) (g : Nat → Nat → K) (fo : List (Orb K)) (v : Orb K) : K := ∑ b ∈ Finset.range fo.length, grad n g v (col fo b) ^ 2

/-- Unit vectors. -/
def unitOrb (k : Nat) : Orb Rat := fun i => if i = k then 1 else 0

end Verif.Spec.ImpSpace
