import Verif.Model.PySet
/-!
# Model of the fermion sign functions

/repo/my_pyscf/lassi/op_o1/utilities.py:13-119
-/
namespace Verif.Signs
open Verif

/-- `(1,-1)[nperms%2]` (utilities.py:38, 69, 96). -/
def sgnOf (nperms : Nat) : Int := if nperms % 2 = 0 then 1 else -1

/-- /repo/my_pyscf/lassi/op_o1/utilities.py:34-37, the loop
`for ix, nb in enumerate (nb_list[1:]): nperms += sum(na_list[:ix+1]) * nb`. -/
def spinShufflePerms (na nb : List Nat) : Nat :=
  ((nb.drop 1).zipIdx.map (fun (p : Nat × Nat) => (na.take (p.2 + 1)).sum * p.1)).sum

/-- /repo/my_pyscf/lassi/op_o1/utilities.py:13-38 `fermion_spin_shuffle`; `none` = AssertionError of
line 33. -/
def fermionSpinShuffle (na nb : List Nat) : Option Int :=
  if na.length = nb.length then some (sgnOf (spinShufflePerms na nb)) else none

/-- /repo/my_pyscf/lassi/op_o1/utilities.py:63-68, loop body state `(lfrag, nbtwn, nperms)`.
Reading `nelec_f[..]` past the end raises IndexError in Python; here `getD 0`, and the theorems are
stated for indices in range. Python's `range (lfrag+1, frag)` is empty when `frag <= lfrag`. -/
def fragShuffleStep (nelec : List Nat) (st : Nat × Nat × Nat) (frag : Nat) : Nat × Nat × Nat :=
  let (lfrag, nbtwn, nperms) := st
  let nbtwn := if 1 < (frag : Int) - (lfrag : Int) then
      nbtwn + ((List.range' (lfrag + 1) (frag - (lfrag + 1))).map (fun j => nelec.getD j 0)).sum
    else nbtwn
  let nperms := if nbtwn ≠ 0 then nperms + nelec.getD frag 0 * nbtwn else nperms
  (frag, nbtwn, nperms)

/-- /repo/my_pyscf/lassi/op_o1/utilities.py:61-69 after the fragment list has been fixed. -/
def fragShuffleOf (nelec : List Nat) : List Nat → Int
  | [] => sgnOf 0
  | f0 :: rest => sgnOf (rest.foldl (fragShuffleStep nelec) (f0, 0, 0)).2.2

/-- /repo/my_pyscf/lassi/op_o1/utilities.py:40-69 `fermion_frag_shuffle`. -/
def fermionFragShuffle (nelec : List Nat) (frags : List Nat) : Int :=
  fragShuffleOf nelec (PySet.listSet frags)

/-- /repo/my_pyscf/lassi/op_o1/utilities.py:92-96 after the (reversed) fragment list is fixed:
`nelec_f = [nelec_f[ix] for ix in frag_list]; i = frag_list.index (i);
nperms = sum (nelec_f[:i]) if i else 0`. -/
def desShuffleOf (nelec : List Nat) (fl : List Nat) (i : Nat) : Int :=
  sgnOf (((fl.map (fun f => nelec.getD f 0)).take (fl.idxOf i)).sum)

/-- /repo/my_pyscf/lassi/op_o1/utilities.py:71-96 `fermion_des_shuffle`; `none` = AssertionError of
line 88. -/
def fermionDesShuffle (nelec : List Nat) (frags : List Nat) (i : Nat) : Option Int :=
  if i ∈ frags then some (desShuffleOf nelec (PySet.listSet frags).reverse i) else none

/-- /repo/my_pyscf/lassi/op_o1/utilities.py:103-119 `lst_hopping_index`.
`nelec[f][r] = (na, nb)`; the result is indexed `[f][spin][k][l]`
(`np.subtract.outer (spin, spin)[k,l] = spin[k] - spin[l]`). -/
def lstHoppingIndex (nelec : List (List (Int × Int))) : List (List (List (List Int))) :=
  nelec.map (fun frag =>
    [frag.map Prod.fst, frag.map Prod.snd].map (fun sp =>
      sp.map (fun x => sp.map (fun y => x - y))))

end Verif.Signs
