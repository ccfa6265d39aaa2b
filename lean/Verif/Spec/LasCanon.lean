import Mathlib.Algebra.BigOperators.Group.Finset.Basic
import Mathlib.Algebra.Order.Field.Basic
/-!
# Specification for C124: canonical orbitals of LASSCF wave functions

Orbitals `0 … ncore-1` are inactive; then come the active orbitals, fragment by fragment; the others are virtual.
-/
namespace Verif.Spec.LasCanon

variable {K : Type} [Field K]

/-- What a diagonalization of a symmetric matrix of dimension `n` promises. -/
structure IsEig (n : Nat) (f : Nat → Nat → K) (e : (Nat → K) × (Nat → Nat → K)) : Prop where
  cols : ∀ a < n, ∀ b < n, (∑ c ∈ Finset.range n, e.2 c a * e.2 c b) = if a = b then 1 else 0
  rows : ∀ a < n, ∀ b < n, (∑ c ∈ Finset.range n, e.2 a c * e.2 b c) = if a = b then 1 else 0
  eig : ∀ a < n, ∀ b < n, (∑ c ∈ Finset.range n, f a c * e.2 c b) = e.2 a b * e.1 b

def EigContract (eig : Nat → (Nat → Nat → K) → (Nat → K) × (Nat → Nat → K)) : Prop :=
  ∀ n f, (∀ a < n, ∀ b < n, f a b = f b a) → IsEig n f (eig n f)

/-- `argsort` returns the positions of the elements in ascending order. -/
def SortContract [LinearOrder K] (argsort : Nat → (Nat → K) → Nat → Nat) : Prop :=
  ∀ n w, (∀ a < n, argsort n w a < n) ∧ (∀ a < n, ∀ b < n, argsort n w a = argsort n w b → a = b) ∧
    ∀ a b, a ≤ b → b < n → w (argsort n w a) ≤ w (argsort n w b)

/-- `a … a+n-1` are the active orbitals of one of the fragments of sizes `sub`, counted from `o` on. -/
def IsPart : List Nat → Nat → Nat → Nat → Prop
  | [], _, _, _ => False
  | m :: rest, o, a, n => (a = o ∧ n = m) ∨ IsPart rest (o + m) a n

/-- No element of `d` between orbitals of different fragments reaches `tol`. -/
def Uncoupled [LinearOrder K] (sub : List Nat) (tol : K) (d : Nat → Nat → K) : Prop :=
  ∀ p < sub.sum, ∀ q < sub.sum, (∀ a n, IsPart sub 0 a n → ¬ ((a ≤ p ∧ p < a + n) ∧ (a ≤ q ∧ q < a + n))) → |d p q| < tol

/-- `o … o+n-1` are all inactive orbitals, all virtual orbitals or all active orbitals of a part. -/
def IsSpace (ncore nmo : Nat) (parts : List Nat) (o n : Nat) : Prop :=
  (o = 0 ∧ n = ncore) ∨ (o = ncore + parts.sum ∧ n = nmo - (ncore + parts.sum)) ∨ ∃ a, IsPart parts 0 a n ∧ o = ncore + a

/-- Element of the matrix of `A` in rotated orbitals. -/
def rot (n : Nat) (U A : Nat → Nat → K) (p q : Nat) : K := ∑ r ∈ Finset.range n, ∑ t ∈ Finset.range n, U r p * U t q * A r t

/-- The columns of `mo'` are those of `mo`, rotated by `U`. -/
def Rotated (nmo : Nat) (mo mo' U : Nat → Nat → K) : Prop := ∀ μ, ∀ p, mo' μ p = ∑ r ∈ Finset.range nmo, mo μ r * U r p

/-- `U` is orthogonal and mixes only orbitals of the same space. -/
structure KeepsSpaces (ncore nmo : Nat) (parts : List Nat) (U : Nat → Nat → K) : Prop where
  orth : ∀ p < nmo, ∀ q < nmo, (∑ r ∈ Finset.range nmo, U r p * U r q) = if p = q then 1 else 0
  within : ∀ o n, IsSpace ncore nmo parts o n → ∀ p, o ≤ p → p < o + n → ∀ r < nmo, ¬ (o ≤ r ∧ r < o + n) → U r p = 0

end Verif.Spec.LasCanon
