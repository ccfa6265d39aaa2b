import Verif.Spec.Tdm
import Verif.Spec.States
import Mathlib.Data.Fintype.Pi
/-!
# Specification: linear combinations of model states
-/
namespace Verif.Spec.Lrrdm
open Verif.Spec Verif.Spec.Tdm

variable {K : Type} [CommRing K]

/-- All choices of a local root of each of the `n` fragments in rootspace `r`. -/
def choices (cols : List (List Nat)) (r n : Nat) : Finset (Fin n → Nat) :=
  Fintype.piFinset (fun f => Finset.range ((cols.getD r []).getD f 0))

/-- The linear combination of all model states, i.e. of all products of the fragment vectors `x f r a` (fragment, rootspace, local
root); the coefficient of a model state is at the place of the state in `c`. -/
def superpose (ns : List Nat) (cols : List (List Nat)) (x : Nat → Nat → Nat → Vec K) (c : Nat → K) : Vec K := fun X Y =>
  ∑ r ∈ Finset.range cols.length, ∑ d ∈ choices cols r ns.length,
    c (stateIndex cols r (List.ofFn d)) * prodVec ns (fun f => x f r ((List.ofFn d).getD f 0)) X Y

end Verif.Spec.Lrrdm
