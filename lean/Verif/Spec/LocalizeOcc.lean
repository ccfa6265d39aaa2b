import Mathlib.Data.List.Basic
/-!
# Specification for C125: division of a reference determinant among fragments

A fragment with `n` electrons and spin multiplicity `m` needs `m - 1` singly and `(n - (m - 1)) / 2` doubly occupied orbitals.
-/
namespace Verif.Spec.LocalizeOcc

/-- The fragments, given by the occupations of their orbitals, have the sizes, numbers of electrons and unpaired electrons demanded. -/
def Divided (sizes : List Nat) (nelec smults : List Int) (res : List (List Nat)) : Prop :=
  res.length = sizes.length ∧ ∀ f < sizes.length, (res.getD f []).length = sizes.getD f 0 ∧
    ((res.getD f []).count 1 : Int) = smults.getD f 0 - 1 ∧
    2 * ((res.getD f []).count 2 : Int) + (res.getD f []).count 1 = nelec.getD f 0

end Verif.Spec.LocalizeOcc
