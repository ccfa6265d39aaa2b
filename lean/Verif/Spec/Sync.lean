import Verif.Model.SyncKernel
/-!
# Specification of a sequence of macrocycles
-/
namespace Verif.Spec.Sync
open Verif.SyncKernel

/-- The wave function at which the gradient of macrocycle `k` is evaluated, if no macrocycle before it ended the calculation. -/
noncomputable def trajectory {X S : Type} (E : Env X S) (s0 : S) : Nat → S
  | 0 => E.solve s0
  | k + 1 => E.solve (E.step (trajectory E s0 k))

end Verif.Spec.Sync
