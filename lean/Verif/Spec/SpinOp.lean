import Verif.Model.SpinOp
/-!
# Spin states
-/
namespace Verif.Spec.Spin
open Finset Verif.SpinOp

/-- The vector has no components outside the strings of `na` alpha and `nb` beta electrons in `norb` orbitals. -/
def InSpace (norb na nb : ℕ) (v : Vec) : Prop := ∀ a b, ¬ (a ∈ strings norb na ∧ b ∈ strings norb nb) → v a b = 0

/-- Square of the length. -/
noncomputable def normSq (norb na nb : ℕ) (v : Vec) : ℝ := ∑ a ∈ strings norb na, ∑ b ∈ strings norb nb, v a b ^ 2

/-- The electrons in `c` of the orbitals `i` being moved from one spin to the other: matrix element of the operator
that annihilates a beta electron and creates an alpha electron in the same orbital (written with the sign of moving it
past the other electrons), summed over orbitals. `S+` applied to `v`. -/
noncomputable def raise (v : Vec) : Vec := fun a b =>
  (-1) ^ (a.card + 1) * ∑ i ∈ a \ b, sgn a i * sgn b i * v (a.erase i) (insert i b)

/-- `S-` applied to `v`. -/
noncomputable def lower (v : Vec) : Vec := fun a b =>
  (-1) ^ a.card * ∑ i ∈ b \ a, sgn a i * sgn b i * v (insert i a) (b.erase i)

/-- The vector has spin `s/2 = (smult - 1)/2`: with `m = na - nb` it is an eigenvector of
`S- S+ = S² - Sz (Sz + 1)` with eigenvalue `s/2 (s/2 + 1) - m/2 (m/2 + 1)`. -/
def SpinPure (na nb : ℕ) (smult : ℤ) (v : Vec) : Prop :=
  ∀ a b, lower (raise v) a b =
    ((((smult - 1 - ((na : ℤ) - nb)) * (smult - 1 + ((na : ℤ) - nb) + 2) : ℤ) : ℝ) / 4) * v a b

/-- The quantum numbers of a fragment: `|na - nb| ≤ smult - 1 ≤ na + nb`, same parity. -/
structure SpinOK (smult : ℤ) (na nb : ℕ) : Prop where
  low : -(smult - 1) ≤ (na : ℤ) - nb
  high : (na : ℤ) - nb ≤ smult - 1
  elec : smult - 1 ≤ na + nb
  parity : (2 : ℤ) ∣ smult - 1 - ((na : ℤ) - nb)

end Verif.Spec.Spin
