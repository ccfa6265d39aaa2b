import Verif.Model.KptCanon
import Verif.Spec.KptCas
/-!
# Specification: canonical orbitals
-/
namespace Verif.Spec.KptCanon
open Verif.HalfOp Verif.KptCas

/-- What `eigh` promises for an `n × n` Hermitian matrix: a unitary matrix whose columns are eigenvectors. -/
structure IsEig (n : Nat) (f : M2 ℂ) (e : (Nat → ℂ) × M2 ℂ) : Prop where
  cols : ∀ a < n, ∀ b < n, (∑ c ∈ Finset.range n, star (e.2 c a) * e.2 c b) = if a = b then 1 else 0
  rows : ∀ a < n, ∀ b < n, (∑ c ∈ Finset.range n, e.2 a c * star (e.2 b c)) = if a = b then 1 else 0
  eig : ∀ a < n, ∀ b < n, (∑ c ∈ Finset.range n, f a c * e.2 c b) = e.2 a b * e.1 b

/-- `eig` keeps this promise for Hermitian matrices. -/
def EigContract (eig : Nat → M2 ℂ → (Nat → ℂ) × M2 ℂ) : Prop :=
  ∀ n f, (∀ a < n, ∀ b < n, star (f a b) = f b a) → IsEig n f (eig n f)

/-- `argsort` gives a permutation of `0, …, n - 1`. -/
def SortContract (argsort : Nat → (Nat → ℂ) → Nat → Nat) : Prop :=
  ∀ n w, (∀ a < n, argsort n w a < n) ∧ (∀ a < n, ∀ b < n, argsort n w a = argsort n w b → a = b)

/-- The Fock matrices are Hermitian. -/
def HermFock (nk nao : Nat) (F : Mos) : Prop := ∀ k < nk, ∀ i < nao, ∀ j < nao, star (F k i j) = F k j i

/-- The orbitals that a canonicalization may change: those that are not active and not frozen. -/
def Free (ncore ncas nmo : Nat) (frozen : List Nat) (p : Nat) : Prop := p ∉ frozen ∧ p < nmo ∧ (p < ncore ∨ ncore + ncas ≤ p)

end Verif.Spec.KptCanon
