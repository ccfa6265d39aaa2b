import Verif.Spec.Tdm
/-!
# Specification: electronic Hamiltonian and total spin as operators on CI vectors

The creation operator is the adjoint of the annihilation operator of Spec/Tdm.lean: the sign counts the occupied spin-orbitals to the
left of the created one.
-/
namespace Verif.Spec.Tdm
open Verif.Spec.Fsucc Verif.Spec.Fockspace Verif.Spec.Outer

variable {K : Type} [Field K]

/-- Creation of orbital `p` with spin down (`s = true`) or up (`s = false`): coefficient of `(A, B)` in `p'|ψ⟩`. -/
def cre (N : Nat) (s : Bool) (p : Nat) (ψ : Vec K) : Vec K := fun A B =>
  if s then (if B.testBit p then (-1) ^ (nOcc 0 N A + nAbove N B p) * ψ A (B ^^^ 2 ^ p) else 0)
  else (if A.testBit p then (-1) ^ nAbove N A p * ψ (A ^^^ 2 ^ p) B else 0)

/-- `Σ h1[s,p,q] p'_s q_s + ½ Σ h2[p,q,r,u] p'_s r'_t u_t q_s` (`h1 false` for spin up). -/
def hamOp (N : Nat) (h1 : Bool → Nat → Nat → K) (h2 : Nat → Nat → Nat → Nat → K) (ψ : Vec K) : Vec K := fun A B =>
  (∑ s : Bool, ∑ p ∈ Finset.range N, ∑ q ∈ Finset.range N, h1 s p q * cre N s p (ann N s q ψ) A B) +
  1 / 2 * ∑ s : Bool, ∑ t : Bool, ∑ p ∈ Finset.range N, ∑ q ∈ Finset.range N, ∑ r ∈ Finset.range N, ∑ u ∈ Finset.range N,
    h2 p q r u * cre N s p (cre N t r (ann N t u (ann N s q ψ))) A B

/-- The operator that raises the spin projection, `S₊ = Σ p'_up p_down`. -/
def sPlus (N : Nat) (ψ : Vec K) : Vec K := fun A B => ∑ p ∈ Finset.range N, cre N false p (ann N true p ψ) A B

/-- The operator that lowers the spin projection, `S₋ = Σ p'_down p_up`. -/
def sMinus (N : Nat) (ψ : Vec K) : Vec K := fun A B => ∑ p ∈ Finset.range N, cre N true p (ann N false p ψ) A B

/-- The spin projection: half the difference of the numbers of spin-up and spin-down electrons. -/
def sZ (N : Nat) (ψ : Vec K) : Vec K := fun A B => (((nOcc 0 N A : Nat) : K) - ((nOcc 0 N B : Nat) : K)) / 2 * ψ A B

/-- The square of the total spin, `S² = S₋ S₊ + S_z S_z + S_z`. -/
def s2Op (N : Nat) (ψ : Vec K) : Vec K := fun A B => sMinus N (sPlus N ψ) A B + sZ N (sZ N ψ) A B + sZ N ψ A B

/-- `⟨φ| H |χ⟩`. -/
def hamEl (N : Nat) (h1 : Bool → Nat → Nat → K) (h2 : Nat → Nat → Nat → Nat → K) (φ χ : Vec K) : K := ovl N φ (hamOp N h1 h2 χ)

/-- `⟨φ| S² |χ⟩`. -/
def s2El (N : Nat) (φ χ : Vec K) : K := ovl N φ (s2Op N χ)

end Verif.Spec.Tdm
