import Verif.Model.SocInt
import Mathlib.Order.Interval.Finset.Nat
/-!
# Specification for C130
-/
namespace Verif.Spec.SocInt
open Verif.SocInt

/-- An orbital of an atom. -/
def Atom.Has (a : Atom) (p : Nat) : Prop := a.p0 ≤ p ∧ p < a.p1

/-- Symmetries of the integrals, which follow from their definition. -/
structure IntSymm (M : Mol) : Prop where
  one : ∀ o y p q, M.prinvxp o y q p = -M.prinvxp o y p q
  left : ∀ y i j k l, M.p1vxp1 y j i k l = -M.p1vxp1 y i j k l
  right : ∀ y i j k l, M.p1vxp1 y i j l k = M.p1vxp1 y i j k l

/-- No two atoms share an orbital. -/
def Separate (M : Mol) : Prop := M.atoms.Pairwise fun a b => ∀ p, ¬ (Atom.Has a p ∧ Atom.Has b p)

/-- Two-electron mean-field spin-orbit coupling with the electrons in the orbitals `S`: the direct term, less 3/2 of the two exchange terms. -/
noncomputable def meanField (h : Nat → Nat → Nat → Nat → Nat → ℝ) (d : Nat → Nat → ℝ) (S : Finset Nat) (y p q : Nat) : ℝ :=
  ∑ r ∈ S, ∑ s ∈ S, d r s * (h y p q s r - 3 / 2 * (h y p r s q + h y s q p r))

end Verif.Spec.SocInt
