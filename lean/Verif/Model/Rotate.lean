import Verif.Model.Umat
/-!
# Model of the loop over linearly equivalent rootspaces (/repo/my_pyscf/lassi/op_o1/stdm.py, hams2ovlp.py)

Rootspaces that `get_unique_roots` finds to span the same space as an earlier one are computed with the vectors of the earlier one;
the results are transformed afterwards with the matrices `umat_root`.

Simplification: the loop transforms several arrays in turn (`tdm1s` and `tdm2s`, or `ham` and `s2`); the arrays do not influence
each other and the model treats one array.
-/
namespace Verif.Umat
open Verif.Spec Verif.Np

variable {R : Type} [CommRing R]

/-- /repo/my_pyscf/lassi/op_o1/stdm.py:1092-1096, hams2ovlp.py:98-102 `_umat_linequiv_`: both state axes of one array. -/
def linequiv (cols : List (List Nat)) (target : Nd R) (op : Nat × Nat × Nd R) : Option (Nd R) := do
  let t ← umatDot1frag target op.2.2 cols op.1 op.2.1 0
  umatDot1frag t op.2.2 cols op.1 op.2.1 1

/-- The order of the loops over `self.ints` and over `inti.umat_root.items ()`, stdm.py:1086-1088; `umats f` lists the items of the
dictionary of fragment `f`. -/
def opsOf (nfrags : Nat) (umats : Nat → List (Nat × Nd R)) : List (Nat × Nat × Nd R) :=
  (List.range nfrags).flatMap (fun f => (umats f).map (fun x => (f, x.1, x.2)))

/-- /repo/my_pyscf/lassi/op_o1/stdm.py:1084-1090 `_umat_linequiv_loop_`. -/
def linequivLoop (cols : List (List Nat)) (nfrags : Nat) (umats : Nat → List (Nat × Nd R)) (target : Nd R) : Option (Nd R) :=
  (opsOf nfrags umats).foldlM (linequiv cols) target

end Verif.Umat
