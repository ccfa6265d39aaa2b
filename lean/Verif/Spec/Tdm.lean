import Verif.Spec.Outer
/-!
# Specification: transition density matrices of CI vectors

A CI vector gives a coefficient for every pair of a spin-up and a spin-down string; the bits of a string are the occupations of
the orbitals. The determinant stands for the product of its creation operators on the vacuum, all spin-up operators to the left of
all spin-down operators and the highest orbital leftmost within each spin (PySCF's convention).
-/
namespace Verif.Spec.Tdm
open Verif.Spec.Fsucc Verif.Spec.Fockspace Verif.Spec.Outer

/-- A CI vector: coefficient of spin-up string `A` and spin-down string `B`. -/
abbrev Vec (K : Type) := Nat → Nat → K

variable {K : Type} [CommRing K]

/-- Annihilation of orbital `p` with spin down (`s = true`) or up (`s = false`) in a space of `N` orbitals: coefficient of
`(A, B)` in `p|ψ⟩`. The sign counts the occupied spin-orbitals to the left of the annihilated one. -/
def ann (N : Nat) (s : Bool) (p : Nat) (ψ : Vec K) : Vec K := fun A B =>
  if s then (if B.testBit p then 0 else (-1) ^ (nOcc 0 N A + nAbove N B p) * ψ A (B ^^^ 2 ^ p))
  else (if A.testBit p then 0 else (-1) ^ nAbove N A p * ψ (A ^^^ 2 ^ p) B)

/-- `⟨φ|ψ⟩` (real vectors). -/
def ovl (N : Nat) (φ ψ : Vec K) : K := ∑ A ∈ Finset.range (2 ^ N), ∑ B ∈ Finset.range (2 ^ N), φ A B * ψ A B

/-- `⟨bra| p'_s q_s |ket⟩`. -/
def tdm1 (N : Nat) (bra ket : Vec K) (s : Bool) (p q : Nat) : K := ovl N (ann N s p bra) (ann N s q ket)

/-- `⟨bra| p'_s r'_t u_t q_s |ket⟩`. -/
def tdm2 (N : Nat) (bra ket : Vec K) (s t : Bool) (p q r u : Nat) : K :=
  ovl N (ann N t r (ann N s p bra)) (ann N t u (ann N s q ket))

/-- The product of one vector per fragment; fragment `f` has the orbitals `fragStart ns f, …`. -/
def prodVec (ns : List Nat) (v : Nat → Vec K) : Vec K := fun A B =>
  ∏ f ∈ Finset.range ns.length, v f (fragStr ns f A) (fragStr ns f B)

/-- The vector has `na` spin-up and `nb` spin-down electrons. -/
def HasNumbers (n : Nat) (v : Vec K) (na nb : Nat) : Prop := ∀ A B, v A B ≠ 0 → nOcc 0 n A = na ∧ nOcc 0 n B = nb

/-- The determinant `(A₀, B₀)`. -/
def det (A₀ B₀ : Nat) : Vec K := fun A B => if A = A₀ ∧ B = B₀ then 1 else 0

end Verif.Spec.Tdm
