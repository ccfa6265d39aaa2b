import Verif.Spec.Fsucc
import Verif.Spec.Swaps
/-!
# Specification: determinants as bit strings
-/
namespace Verif.Spec.Fockspace
open Verif.Spec.Fsucc Verif.Spec

/-- The first orbital of fragment `f` when fragment sizes are `norbF`. -/
def fragStart (norbF : List Nat) (f : Nat) : Nat := (norbF.take f).sum

/-- Electrons of determinant `D` in each fragment. -/
def fragOcc (norbF : List Nat) (D : Nat) : List Nat :=
  (List.range norbF.length).map fun f => nOcc (fragStart norbF f) (fragStart norbF (f + 1)) D

/-- The occupied orbitals of `D` in `[lo, hi)`, highest first: the order of the creation operators of a determinant
`... c2' c1' c0' |vac>`. -/
def occDesc (lo hi D : Nat) : List Nat := ((List.range' lo (hi - lo)).filter fun p => D.testBit p).reverse

/-- The symbol of one orbital. -/
def onvChar (A B p : Nat) : Char :=
  match A.testBit p, B.testBit p with
  | true, true => '2' | false, false => '0' | true, false => 'a' | false, true => 'b'

end Verif.Spec.Fockspace
