import Mathlib.Algebra.Order.Group.Unbundled.Int
import Mathlib.Algebra.BigOperators.Group.List.Basic
/-!
# Specification for C127: strings of spin projections

All quantum numbers are doubled.
-/
namespace Verif.Spec.CgProd

/-- `m` is a possible projection of the spin `j`. -/
def Projection (j m : Int) : Prop := |m| ≤ j ∧ (j - m) % 2 = 0

/-- `m` are projections of the spins `j` which add up to `mtot`. -/
structure IsString (j : List Int) (mtot : Int) (m : List Int) : Prop where
  each : List.Forall₂ Projection j m
  total : m.sum = mtot

/-- The spins `j` are coupled one after the other to the spins `p.take (k + 1)`. -/
structure IsCoupled (j p : List Int) : Prop where
  length : j.length = p.length
  spin : ∀ k < j.length, 0 ≤ j.getD k 0
  low : ∀ k < j.length, |(p.take k).sum - j.getD k 0| ≤ (p.take (k + 1)).sum
  high : ∀ k < j.length, (p.take (k + 1)).sum ≤ (p.take k).sum + j.getD k 0
  parity : ∀ k < j.length, ((p.take k).sum + j.getD k 0 - (p.take (k + 1)).sum) % 2 = 0

end Verif.Spec.CgProd
