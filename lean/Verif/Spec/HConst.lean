import Verif.Model.HConst
import Mathlib.Algebra.BigOperators.Group.List.Basic
/-!
# Specification for C131
-/
namespace Verif.Spec.HConst
open Verif.HConst

variable {K : Type} [Ring K]

/-- `x` is the constant `h0` times the CI vectors of the kets `kk`, as seen from a bra with `nelec` electrons: a column that belongs to state `a`
of the ket `r` holds `h0` times this vector if the electrons are the same, and all other columns are zero. -/
def IsConst (h0 : K) (S : List (Space K)) (kk : List Nat) (nelec : Nat × Nat) (x : Nat → Nat → K) : Prop :=
  (∀ r ∈ kk, ∀ s, S[r]? = some s → s.nelec = nelec → ∀ a < s.nstates, ∀ c, x c (offs S r + a) = h0 * s.ci c a) ∧
  ∀ q, (¬ ∃ r ∈ kk, ∃ s, S[r]? = some s ∧ s.nelec = nelec ∧ offs S r ≤ q ∧ q < offs S r + s.nstates) → ∀ c, x c q = 0

end Verif.Spec.HConst
