import Verif.Model.FsuccOp
import Verif.Spec.Fsucc
import Mathlib.Data.Nat.Factorial.Basic
/-!
# Specification: operators built from generators
-/
namespace Verif.Spec.FsuccOp
open Verif.FsuccOp Verif.Spec.Fsucc

/-- Change the amplitude of generator `k` to `t`. -/
def setAmp (gens : List Gen) (k : Nat) (t : ℝ) : List Gen := gens.modify k fun g => { g with amp := t }

/-- The generators pass the constructor's checks: orbitals in range, no orbital twice in a string, and the two
strings not rearrangements of each other. -/
def GensOK (norb : Nat) (gens : List Gen) : Prop :=
  ∀ g ∈ gens, (∀ x ∈ g.a, x < norb) ∧ (∀ x ∈ g.i, x < norb) ∧ g.a.Nodup ∧ g.i.Nodup ∧ ¬ g.a.Perm g.i

/-- `hop` is a symmetric linear map on vectors of length `2^norb`. -/
def SymmetricMap (norb : Nat) (hop : (Nat → ℝ) → (Nat → ℝ)) : Prop :=
  ∃ h : Nat → Nat → ℝ, (∀ D E, h D E = h E D) ∧
    ∀ φ, ∀ D < 2 ^ norb, hop φ D = ∑ E ∈ Finset.range (2 ^ norb), h D E * φ E

/-- The terms of the Hamiltonian: `h0 + Σ_k 1/k! Σ h_k a'..i`, where `h_k` is stored packed. -/
noncomputable def hamTerms (norb : Nat) (ψ : Nat → ℝ) : List (Nat → ℝ) → Nat → Nat → ℝ
  | [], _, _ => 0
  | ht :: l, k, D => 1 / (Nat.factorial (k + 1) : ℝ) * hopOp norb (k + 1) ht ψ D + hamTerms norb ψ l (k + 1) D

end Verif.Spec.FsuccOp
