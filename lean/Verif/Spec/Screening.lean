import Verif.Spec.LstdmKernel
import Verif.Spec.RdmSmult
/-!
# Specification: model states of definite local spin
-/
namespace Verif.Spec.Lstdm
open Verif.Lstdm Verif.Spec.RdmSmult

/-- The vectors `w f u a` of fragment `f`, unique rootspace `u`, local root `a` have, in every rootspace they belong to, the numbers of
electrons and the spin multiplicity (`sm`, per rootspace a list over fragments) that are given for this rootspace. -/
structure HasMultiplicities (k : Kern ℝ) (sm : List (List Int)) (w : Nat → Nat → Nat → Verif.Spec.Tdm.Vec ℝ) : Prop where
  len : ∀ r < k.cols.length, (sm.getD r []).length = k.nlas.length
  state : ∀ f < k.nlas.length, ∀ r < k.cols.length, ∀ a < lroots k r f, ∃ v : Verif.SpinOp.Vec,
    State (k.nlas.getD f 0) ((k.nelec.getD r []).getD f (0, 0)).1 ((k.nelec.getD r []).getD f (0, 0)).2 ((sm.getD r []).getD f 0) v ∧
    ∀ A < 2 ^ k.nlas.getD f 0, ∀ B < 2 ^ k.nlas.getD f 0, w f (k.uroot f r) a A B = onStrings (k.nlas.getD f 0) v A B

end Verif.Spec.Lstdm
