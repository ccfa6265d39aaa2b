import Verif.Spec.Spaces
/-!
# When a single excitation with free choice of the spin is possible
-/
namespace Verif.Spec
open Verif.Spaces

/-- Fragment `i` stays possible when it loses an electron (alpha if `alpha`) and its multiplicity changes by `ds`. -/
def Removable (sp : Space) (i : Nat) (alpha : Bool) (ds : Int) : Prop :=
  ∃ na nb, FragOcc sp i na nb ∧
    Realizable (el sp.nlas i) (if alpha then na - 1 else na) (if alpha then nb else nb - 1) (el sp.smults i + ds)

/-- Fragment `a` stays possible when it receives an electron (alpha if `alpha`) and its multiplicity changes by
`ds`. -/
def Addable (sp : Space) (a : Nat) (alpha : Bool) (ds : Int) : Prop :=
  ∃ na nb, FragOcc sp a na nb ∧
    Realizable (el sp.nlas a) (if alpha then na + 1 else na) (if alpha then nb else nb + 1) (el sp.smults a + ds)

/-- A fragment other than `i` and `a` is not yet at its highest projection. -/
def CanRaise (sp : Space) (i a : Nat) : Prop :=
  ∃ p, p < sp.nfrag ∧ p ≠ i ∧ p ≠ a ∧ el sp.spins p < el sp.smults p - 1

/-- A fragment other than `i` and `a` is not yet at its lowest projection. -/
def CanLower (sp : Space) (i a : Nat) : Prop :=
  ∃ p, p < sp.nfrag ∧ p ≠ i ∧ p ≠ a ∧ el sp.spins p > 1 - el sp.smults p

end Verif.Spec
