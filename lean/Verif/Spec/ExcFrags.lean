import Verif.Model.ExcFrags
/-!
# Specification for C56

A history is a list of calls, oldest first. The last call for a fragment is found by searching from the end. The orbitals
of fragment `f` are the block of `norb[f]` consecutive orbitals after those of the earlier fragments.
-/
namespace Verif.Spec.ExcFrags
open Verif.ExcFrags

def lastCall (h : List Call) (f : Nat) : Option Call := h.reverse.find? (fun c => c.frag == f)

def fragOrbs (norb : List Nat) (f : Nat) : List Nat := List.range' (norb.take f).sum (norb.getD f 0)

end Verif.Spec.ExcFrags
