import Verif.Spec.Spaces
/-!
# Which member of a manifold of single excitations represents it
-/
namespace Verif.Spec
open Verif.Spaces

/-- The local projections `filter_shuffles` prefers for an excitation of the reference `ref` from fragment `i` to
fragment `a`: spectators keep their projection; `i` and `a` keep the direction of their projection, whose magnitude
follows the change of multiplicity. Where the reference has projection zero in one of the two, the direction is
opposite to that of the other one; where it has zero in both, `i` points down and `a` points up. -/
structure Preferred (ref sp : Space) (i a : Nat) : Prop where
  spectators : ∀ k, k ≠ i → k ≠ a → el sp.spins k = el ref.spins k
  size_i : |el sp.spins i| = |el ref.spins i| + (el sp.smults i - el ref.smults i)
  size_a : |el sp.spins a| = |el ref.spins a| + (el sp.smults a - el ref.smults a)
  keep_i : el ref.spins i ≠ 0 → 0 ≤ el sp.spins i * el ref.spins i
  keep_a : el ref.spins a ≠ 0 → 0 ≤ el sp.spins a * el ref.spins a
  turn_i : el ref.spins i = 0 → el ref.spins a ≠ 0 → el sp.spins i * el ref.spins a ≤ 0
  turn_a : el ref.spins a = 0 → el ref.spins i ≠ 0 → el sp.spins a * el ref.spins i ≤ 0
  both : el ref.spins i = 0 → el ref.spins a = 0 → el sp.spins i ≤ 0 ∧ 0 ≤ el sp.spins a

end Verif.Spec
