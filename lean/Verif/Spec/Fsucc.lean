import Mathlib.Data.Nat.Bitwise
import Mathlib.Data.Finset.Card
import Mathlib.Data.Finset.Range
import Mathlib.Order.Interval.Finset.Nat
import Mathlib.Algebra.Ring.Basic
import Mathlib.Algebra.Field.Basic
import Mathlib.Algebra.BigOperators.Fin
/-!
# Specification: second quantization on Fock-space vectors

A vector gives a coefficient for every determinant, a number whose bits are the occupations. A determinant stands for
the product of its creation operators, highest orbital leftmost, acting on the vacuum.
-/
namespace Verif.Spec.Fsucc

variable {K : Type}

/-- The number of occupied orbitals above `p`. -/
def nAbove (norb D p : Nat) : Nat := ((Finset.range norb).filter fun q => p < q ∧ D.testBit q).card

/-- The annihilation operator of orbital `p`: the coefficient of `D` in `p|ψ⟩`. -/
def ann [Ring K] (norb p : Nat) (ψ : Nat → K) : Nat → K := fun D =>
  if D.testBit p then 0 else (-1) ^ nAbove norb D p * ψ (D ^^^ 2 ^ p)

/-- The creation operator of orbital `p`: the coefficient of `D` in `p'|ψ⟩`. -/
def cre [Ring K] (norb p : Nat) (ψ : Nat → K) : Nat → K := fun D =>
  if D.testBit p then (-1) ^ nAbove norb D p * ψ (D ^^^ 2 ^ p) else 0

/-- `… i1 i0 |ψ⟩`: `i0` acts first. -/
def anns [Ring K] (norb : Nat) : List Nat → (Nat → K) → (Nat → K)
  | [], ψ => ψ
  | i :: l, ψ => anns norb l (ann norb i ψ)

/-- `a0' a1' … |ψ⟩`: `a0'` acts last. -/
def cres [Ring K] (norb : Nat) : List Nat → (Nat → K) → (Nat → K)
  | [], ψ => ψ
  | a :: l, ψ => cre norb a (cres norb l ψ)

/-- `a0' a1' … i1 i0 |ψ⟩`. -/
def excite [Ring K] (norb : Nat) (aidx iidx : List Nat) (ψ : Nat → K) : Nat → K :=
  cres norb aidx (anns norb iidx ψ)

/-- The anti-Hermitian generator `a0'a1'…i1i0 - i0'i1'…a1a0`. -/
def generator [Ring K] (norb : Nat) (aidx iidx : List Nat) (ψ : Nat → K) : Nat → K := fun D =>
  excite norb aidx iidx ψ D - excite norb iidx aidx ψ D

/-- `D` has no electron outside its `norb` orbitals and, of the orbitals of the two lists, exactly those of `occ`
occupied. -/
def Matches (norb : Nat) (occ other : List Nat) (D : Nat) : Prop :=
  D < 2 ^ norb ∧ ∀ p, p ∈ occ ∨ p ∈ other → (D.testBit p = true ↔ p ∈ occ)

/-- The packed index of an unordered pair: the larger of the two gives the row of the lower triangle. -/
def tri (p q : Nat) : Nat := max p q * (max p q + 1) / 2 + min p q

/-- The row-major index of an entry of an array all of whose dimensions are `n`. -/
def rowMajor (n : Nat) (l : List Nat) : Nat := l.foldl (fun acc x => acc * n + x) 0

/-- The spin-symmetric `k`-body operator with amplitudes `hop` stored for unordered pairs: the sum over all orbitals
`pⱼ`, `qⱼ` and spins `σⱼ` of `hop[p₀q₀, p₁q₁, …] p₀σ₀' p₁σ₁' … q₁σ₁ q₀σ₀`. Spin orbital `(p, σ)` has number
`p + σ norb`. -/
def hopOp [Ring K] (norb k : Nat) (hop : Nat → K) (ψ : Nat → K) : Nat → K := fun D =>
  ∑ t : Fin k → Fin norb × Fin norb × Fin 2,
    hop (rowMajor (norb * (norb + 1) / 2) (List.ofFn fun j => tri (t j).1 (t j).2.1)) *
      excite (2 * norb) (List.ofFn fun j => ((t j).1 : Nat) + (t j).2.2 * norb)
        (List.ofFn fun j => ((t j).2.1 : Nat) + (t j).2.2 * norb) ψ D

/-- `S₊`, which turns spin-down (orbitals `norb…`) into spin-up (orbitals `0…`). -/
def splus [Ring K] (norb : Nat) (ψ : Nat → K) : Nat → K := fun D =>
  ∑ q ∈ Finset.range norb, cre (2 * norb) q (ann (2 * norb) (q + norb) ψ) D

/-- `S₋`. -/
def sminus [Ring K] (norb : Nat) (ψ : Nat → K) : Nat → K := fun D =>
  ∑ p ∈ Finset.range norb, cre (2 * norb) (p + norb) (ann (2 * norb) p ψ) D

/-- The number of electrons of a determinant in the orbitals `lo ≤ p < hi`. -/
def nOcc (lo hi D : Nat) : Nat := ((Finset.Ico lo hi).filter fun p => D.testBit p).card

/-- `Sz`. -/
def sz [Field K] (norb : Nat) (ψ : Nat → K) : Nat → K := fun D =>
  ((nOcc 0 norb D : K) - nOcc norb (2 * norb) D) / 2 * ψ D

/-- `S² = S₋ S₊ + Sz (Sz + 1)`. -/
def ssquare [Field K] (norb : Nat) (ψ : Nat → K) : Nat → K := fun D =>
  sminus norb (splus norb ψ) D + sz norb (fun E => sz norb ψ E + ψ E) D

end Verif.Spec.Fsucc
