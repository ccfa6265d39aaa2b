import Mathlib.Algebra.BigOperators.Group.Finset.Basic
import Mathlib.Algebra.Field.Defs
import Mathlib.Data.Fintype.BigOperators
/-!
# Specification for C121: density matrices and energy of a state with doubly occupied core orbitals

Orbitals below `ncore` are core orbitals, the others are active. `d` (per spin) and `D` (spin-summed) are the density matrices
of the active orbitals, numbered from zero.
-/
namespace Verif.Spec.LasEnergy

variable {K : Type} [Field K]

/-- One-body density matrix for one spin: one electron in each core orbital. -/
def rdm1 (ncore : Nat) (d : Bool → Nat → Nat → K) (σ : Bool) (p q : Nat) : K :=
  if p < ncore ∨ q < ncore then (if p = q then 1 else 0) else d σ (p - ncore) (q - ncore)

/-- Spin-summed two-body density matrix `⟨p† r† s q⟩` of two electrons in each core orbital and the active electrons. -/
def rdm2 (ncore : Nat) (d : Bool → Nat → Nat → K) (D : Nat → Nat → Nat → Nat → K) (p q r s : Nat) : K :=
  let δ (x y : Nat) : K := if x = y then 1 else 0
  let ρ (x y : Nat) : K := d false (x - ncore) (y - ncore) + d true (x - ncore) (y - ncore)
  match decide (p < ncore), decide (q < ncore), decide (r < ncore), decide (s < ncore) with
  | true, true, true, true => 4 * δ p q * δ r s - 2 * δ p s * δ r q
  | true, true, false, false => 2 * δ p q * ρ r s
  | false, false, true, true => 2 * δ r s * ρ p q
  | true, false, false, true => -(δ p s * ρ r q)
  | false, true, true, false => -(δ r q * ρ p s)
  | false, false, false, false => D (p - ncore) (q - ncore) (r - ncore) (s - ncore)
  | _, _, _, _ => 0

/-- Energy of `n` orbitals with integrals `h` and `(pq|rs)` and density matrices `γ`, `Γ`. -/
def energy (n : Nat) (h : Nat → Nat → K) (G : Nat → Nat → Nat → Nat → K) (γ : Bool → Nat → Nat → K)
    (Γ : Nat → Nat → Nat → Nat → K) : K :=
  (∑ σ : Bool, ∑ p ∈ Finset.range n, ∑ q ∈ Finset.range n, h p q * γ σ p q) +
    2⁻¹ * ∑ p ∈ Finset.range n, ∑ q ∈ Finset.range n, ∑ r ∈ Finset.range n, ∑ s ∈ Finset.range n, G p q r s * Γ p q r s

/-- Integrals over the orbitals in the columns of `C`, from those over `nao` atomic orbitals. -/
def mo1 (nao : Nat) (C h : Nat → Nat → K) (p q : Nat) : K :=
  ∑ μ ∈ Finset.range nao, ∑ ν ∈ Finset.range nao, C μ p * C ν q * h μ ν
@[inherit_doc mo1]
def mo2 (nao : Nat) (C : Nat → Nat → K) (g : Nat → Nat → Nat → Nat → K) (p q r s : Nat) : K :=
  ∑ μ ∈ Finset.range nao, ∑ ν ∈ Finset.range nao, ∑ l ∈ Finset.range nao, ∑ k ∈ Finset.range nao,
    C μ p * C ν q * C l r * C k s * g μ ν l k

/-- A density matrix over the orbitals `0 … n-1` expressed in atomic orbitals. -/
def toAO (n : Nat) (C γ : Nat → Nat → K) (μ ν : Nat) : K :=
  ∑ p ∈ Finset.range n, ∑ q ∈ Finset.range n, C μ p * γ p q * C ν q

/-- Symmetry of real two-electron integrals `(pq|rs)`. -/
structure EightFold (g : Nat → Nat → Nat → Nat → K) : Prop where
  bra : ∀ p q r s, g p q r s = g q p r s
  ket : ∀ p q r s, g p q r s = g p q s r
  pairs : ∀ p q r s, g p q r s = g r s p q

/-- The flat array `h2` holds `(p u|v w)`, for the orbitals `p` (any) and active `u, v, w`; the pair `v ≥ w` is packed. -/
def Packed (nmo ncore ncas : Nat) (h2 : Nat → K) (G : Nat → Nat → Nat → Nat → K) : Prop :=
  ∀ p u v w, p < nmo → u < ncas → v < ncas → w ≤ v →
    h2 ((p * ncas + u) * (ncas * (ncas + 1) / 2) + (v * (v + 1) / 2 + w)) = G p (ncore + u) (ncore + v) (ncore + w)

end Verif.Spec.LasEnergy
