import Mathlib.Algebra.BigOperators.Group.Finset.Basic
import Mathlib.Algebra.Field.Defs
import Mathlib.Data.Fintype.BigOperators
/-!
# Specification for C54: energy of a state with given densities, permutational symmetry
-/
namespace Verif.Spec.PsEnergy

variable {K : Type} [Field K]

/-- Energy under the Hamiltonian with constant `h0`, one-body part `h1` (per spin) and two-body part `h2` of a state of `n`
orbitals with one-body density `d` (per spin) and spin-summed two-body density `D`. -/
def energy (n : Nat) (h0 : K) (h1 : Bool → Nat → Nat → K) (h2 : Nat → Nat → Nat → Nat → K)
    (d : Bool → Nat → Nat → K) (D : Nat → Nat → Nat → Nat → K) : K :=
  h0 + (∑ σ : Bool, ∑ p ∈ Finset.range n, ∑ q ∈ Finset.range n, h1 σ p q * d σ p q) +
    2⁻¹ * ∑ p ∈ Finset.range n, ∑ q ∈ Finset.range n, ∑ r ∈ Finset.range n, ∑ s ∈ Finset.range n, h2 p q r s * D p q r s

/-- Symmetries of real two-electron integrals `(pq|rs)`. -/
structure Sym (h2 : Nat → Nat → Nat → Nat → K) : Prop where
  pairs : ∀ p q r s, h2 p q r s = h2 r s p q
  flip : ∀ p q r s, h2 p q r s = h2 q p s r

/-- One-body density matrices of real states are symmetric. -/
def SymDensity (d : Bool → Nat → Nat → K) : Prop := ∀ σ p q, d σ p q = d σ q p

end Verif.Spec.PsEnergy
