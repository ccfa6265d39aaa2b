import Mathlib.Data.List.Basic
import Mathlib.Algebra.Order.Group.Unbundled.Int
/-!
# Specification for C126: genealogical couplings

Angular momenta `(m - 1) / 2` of the given multiplicities are coupled one after the other; a path lists twice the total spin after each step.
-/
namespace Verif.Spec.GenCoup

/-- Twice the spin `c` can result from coupling twice the spins `a` and `b`. -/
def Triangle (a b c : Int) : Prop := |a - b| ≤ c ∧ c ≤ a + b ∧ (a + b - c) % 2 = 0

/-- `p` is a coupling of the spins with multiplicities `smults` to the multiplicity `smult`. -/
structure IsCoupling (smults : List Nat) (smult : Nat) (p : List Int) : Prop where
  length : p.length = smults.length
  first : p.getD 0 0 = (smults.getD 0 0 : Int) - 1
  step : ∀ i, i + 1 < smults.length → Triangle (p.getD i 0) ((smults.getD (i + 1) 0 : Int) - 1) (p.getD (i + 1) 0)
  last : p.getD (smults.length - 1) 0 = (smult : Int) - 1

end Verif.Spec.GenCoup
