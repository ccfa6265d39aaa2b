import Verif.Model.Np
import Verif.Model.Addr
/-!
# Model of the one-fragment transformation of SI vectors (/repo/my_pyscf/lassi/citools.py:75-121)
-/
namespace Verif.Umat
open Verif.Spec Verif.Np Verif.Addr

variable {R : Type} [CommRing R]

/-- /repo/my_pyscf/lassi/citools.py:105-121 `_umat_dot_1frag`. `lroots` is the column of one rootspace.
Division by zero (`ncol1 == 0`) is `none`. -/
def umatDot1frag' (target umat : Nd R) (lroots : List Nat) (ifrag : Nat) : Option (Nd R) :=
  let iifrag := lroots.length - ifrag - 1
  let oldShape1 := target.shape
  let newShape := lroots.reverse
  let nrow := (newShape.take iifrag).prod
  let ncol1 := lroots.getD ifrag 0
  if ncol1 ≠ umat.shape.getD 0 0 then none else
  let ncol2 := umat.shape.getD 1 0
  if ncol1 = 0 then none else
  let nstack := (newShape.drop iifrag).prod * (oldShape1.drop 1).prod / ncol1
  do
    let t1 ← target.reshape [nrow, ncol1, nstack]
    let t2 ← tensordot1 (umat.transpose [1, 0]) (t1.transpose [1, 0, 2])
    let t3 := t2.transpose [1, 0, 2]
    t3.reshape ((oldShape1.getD 0 0 * ncol2 / ncol1) :: oldShape1.drop 1)

/-- /repo/my_pyscf/lassi/citools.py:75-103 `umat_dot_1frag_`. The transposed arrays are views of `target`,
so the value returned is the value `target` holds afterwards. -/
def umatDot1frag (target umat : Nd R) (cols : List (List Nat)) (ifrag iroot axis : Nat) : Option (Nd R) :=
  let nprods := cols.map List.prod
  let offs := 0 :: npCumsum nprods
  let i := offs.getD iroot 0
  let j := offs.getD (iroot + 1) 0
  let newaxes := [axis] ++ List.range axis ++ (List.range target.shape.length).drop (axis + 1)
  let oldaxes := argsort newaxes
  let t1 := target.transpose newaxes
  do
    let b ← umatDot1frag' (t1.slice0 i j) umat (cols.getD iroot []) ifrag
    let t2 ← t1.setSlice0 i j b
    pure (t2.transpose oldaxes)

end Verif.Umat
