import Verif.Spec.Fockspace
/-!
# Specification for C57: a determinant as a product of creation operators

The determinant with spin-up string `A` and spin-down string `B` is the product of the creation operators of the
occupied spin-up orbitals, highest first, followed by those of the occupied spin-down orbitals.
-/
namespace Verif.Spec.Dummy
open Verif.Spec.Fockspace

/-- Letters `(up, orbital)`. -/
def detWord (norb A B : Nat) : List (Bool × Nat) :=
  (occDesc 0 norb A).map (fun p => (true, p)) ++ (occDesc 0 norb B).map (fun p => (false, p))

/-- The operators that fill orbital `norb`: spin up left of spin down. -/
def addWord (norb : Nat) (occA occB : Bool) : List (Bool × Nat) :=
  (if occA then [(true, norb)] else []) ++ (if occB then [(false, norb)] else [])

end Verif.Spec.Dummy
