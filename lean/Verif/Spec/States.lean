import Verif.Spec.Radix
/-!
# Specification: the place of a product state in an SI vector

`cols` lists, for each rootspace, the number of local roots of each fragment. The states of rootspace 0 come
first, then those of rootspace 1, and so on; within a rootspace the first fragment is fastest.
-/
namespace Verif.Spec

/-- First state of rootspace `r`. -/
def rootStart (cols : List (List Nat)) (r : Nat) : Nat := ((cols.take r).map List.prod).sum

/-- The place of the product state of rootspace `r` with local roots `d`. -/
def stateIndex (cols : List (List Nat)) (r : Nat) (d : List Nat) : Nat :=
  rootStart cols r + posF (cols.getD r []) d

example : stateIndex [[2, 3], [1, 2]] 0 [1, 2] = 5 ∧ stateIndex [[2, 3], [1, 2]] 1 [0, 1] = 7 := by decide

end Verif.Spec
