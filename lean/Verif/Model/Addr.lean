import Mathlib.Algebra.BigOperators.Group.List.Basic
/-!
# Model of the product-state addressing (/repo/my_pyscf/lassi/citools.py:44-121)

NumPy integer arrays are lists; a table `lroots[nfrags, nroots]` is given as the list of its columns
`lroots[:, iroot]`, each of length `nfrags`.
-/
namespace Verif.Addr

/-- `np.repeat (l, r)`. -/
def npRepeat (l : List Nat) (r : Nat) : List Nat := l.flatMap (fun x => List.replicate r x)

/-- `np.tile (l, t)`. -/
def npTile (l : List Nat) (t : Nat) : List Nat := (List.replicate t l).flatten

/-- `np.cumsum (l)`. -/
def npCumsum (l : List Nat) : List Nat := (List.range l.length).map (fun i => (l.take (i + 1)).sum)

/-- `arr[i:j] = vals`; `none` is NumPy's broadcasting error. -/
def sliceAssign {α : Type} (arr : List α) (i j : Nat) (vals : List α) : Option (List α) :=
  if i ≤ j ∧ j ≤ arr.length ∧ vals.length = j - i then some (arr.take i ++ vals ++ arr.drop j) else none

/-- citools.py:67-70: the local-root addresses of fragment `ifrag` within one rootspace. -/
def addrsOf (col : List Nat) (ifrag : Nat) : List Nat :=
  npTile (npRepeat (List.range (col.getD ifrag 0)) (col.take ifrag).prod) (col.drop (ifrag + 1)).prod

/-- citools.py:63-72: one iteration of the loop over rootspaces. The rows of `fragaddr` are independent,
so the inner loop over fragments is a map over rows. -/
def addrStep (cols : List (List Nat)) (st : Option (List Nat × List (List Nat))) (iroot : Nat) :
    Option (List Nat × List (List Nat)) :=
  st.bind fun (rootaddr, fragaddr) =>
    let nprods := cols.map List.prod
    let j := (npCumsum nprods).getD iroot 0
    let i := j - nprods.getD iroot 0
    (fragaddr.zipIdx.mapM (fun (row, ifrag) =>
        sliceAssign row i j (addrsOf (cols.getD iroot []) ifrag))).bind fun fragaddr =>
      (sliceAssign rootaddr i j (List.replicate (j - i) iroot)).map fun rootaddr => (rootaddr, fragaddr)

/-- /repo/my_pyscf/lassi/citools.py:44-73 `get_rootaddr_fragaddr`. -/
def getRootaddrFragaddr (nfrags : Nat) (cols : List (List Nat)) : Option (List Nat × List (List Nat)) :=
  let n := (cols.map List.prod).sum
  (List.range cols.length).foldl (addrStep cols)
    (some (List.replicate n 0, List.replicate nfrags (List.replicate n 0)))

end Verif.Addr
