import Verif.Model.LstdmKernel
import Verif.Model.Rotate
/-!
# Model of `LSTDM.get_ovlp` (/repo/my_pyscf/lassi/op_o1/stdm.py:502-552)

Simplification: rootspaces are given by non-negative indices, and a single index is given as a list (`np.atleast_1d`).
-/
namespace Verif.Lstdm
open Verif.Signs Verif.Exc Verif.Addr Verif.Np Verif.Umat

namespace Kern
variable {K : Type} (k : Kern K)

/-- stdm.py:128, 300-303 `self.exc_null`. -/
def excNull : List (Nat × Nat) := (table rowNull k.nelecI k.scai).map Prod.fst

/-- stdm.py:518, 527: the numbers of local roots of the selected rootspaces. -/
def selCols (rootidx : Option (List Nat)) : List (List Nat) :=
  match rootidx with
  | none => k.cols
  | some l => l.map (fun r => k.cols.getD r [])

/-- stdm.py:519, 524-526: the pairs of selected rootspaces. -/
def selNull (rootidx : Option (List Nat)) : List (Nat × Nat) :=
  match rootidx with
  | none => k.excNull
  | some l => k.excNull.filter (fun p => l.contains p.1 && l.contains p.2)

/-- `offs0[i], offs1[i]`, stdm.py:92-95 and 528-530. -/
def blockAt (cols : List (List Nat)) (i : Nat) : Nat × Nat :=
  ((npCumsum (cols.map List.prod)).getD i 0 - (cols.map List.prod).getD i 0, (npCumsum (cols.map List.prod)).getD i 0)

/-- stdm.py:520, 531-532: the first row and the end of the block of rootspace `r`; a later entry of `rootidx` overwrites an earlier. -/
def selOffs (rootidx : Option (List Nat)) (r : Nat) : Nat × Nat :=
  match rootidx with
  | none => blockAt k.cols r
  | some l => (List.range l.length).foldl (fun o i => if l.getD i 0 = r then blockAt (k.selCols rootidx) i else o) (blockAt k.cols r)

/-- stdm.py:541-547: the matrices of fragment `f` with the positions of their rootspaces; `umat_root` is the list of the items of
the dictionary of the fragment. -/
def selUmats (rootidx : Option (List Nat)) (umat_root : List (Nat × Nd K)) : List (Nat × Nd K) :=
  match rootidx with
  | none => umat_root
  | some l => (List.range l.length).filterMap (fun i => (umat_root.lookup (l.getD i 0)).map (fun U => (i, U)))

/-- stdm.py:538 `ovlp[i0:i1,j0:j1] = o`. NumPy also accepts an array of one row or column; that is not modelled. -/
def setBlock (acc : Nat → Nat → K) (i j : Nat × Nat) (o : Nat × Nat × (Nat → Nat → K)) : Option (Nat → Nat → K) :=
  if o.1 = i.2 - i.1 ∧ o.2.1 = j.2 - j.1 then
    some (fun x y => if (i.1 ≤ x ∧ x < i.2) ∧ (j.1 ≤ y ∧ y < j.2) then o.2.2 (x - i.1) (y - j.1) else acc x y)
  else none

variable [Field K]

/-- stdm.py:502-510 `crunch_ovlp`; `self.ints[-1]` raises for zero fragments. -/
def crunchOvlp (bra ket : Nat) : Option (Nat × Nat × (Nat → Nat → K)) :=
  if k.nlas.length = 0 then none else do
    let last := k.ovlpMat (k.nlas.length - 1) bra ket
    let o := (List.range (k.nlas.length - 1)).reverse.foldl (fun o f => kron1 o (k.ovlpMat f bra ket))
      (last.1, last.2.1, fun x y => last.2.2 x y / (1 + if bra = ket then 1 else 0))
    let nb := k.nelec.getD bra []
    let nk := k.nelec.getD ket []
    let sb ← fermionSpinShuffle (nb.map Prod.fst) (nb.map Prod.snd)
    let sk ← fermionSpinShuffle (nk.map Prod.fst) (nk.map Prod.snd)
    pure (o.1, o.2.1, fun x y => o.2.2 x y * ((sb : Int) : K) * ((sk : Int) : K))

/-- stdm.py:535-539: the blocks and the transpose. -/
def ovlpBlocks (rootidx : Option (List Nat)) : Option (Nat → Nat → K) :=
  ((k.selNull rootidx).foldlM (fun acc p => (k.crunchOvlp p.1 p.2).bind (fun o =>
    setBlock acc (k.selOffs rootidx p.1) (k.selOffs rootidx p.2) o)) (fun _ _ => 0)).map (fun acc x y => acc x y + acc y x)

/-- stdm.py:517-552 `get_ovlp`; `offs1[-1]` raises if no rootspace is selected. -/
def getOvlp (umats : Nat → List (Nat × Nd K)) (rootidx : Option (List Nat)) : Option (Nd K) := do
  let nstates ← (npCumsum ((k.selCols rootidx).map List.prod)).getLast?
  let acc ← k.ovlpBlocks rootidx
  linequivLoop (k.selCols rootidx) k.nlas.length (fun f => selUmats rootidx (umats f)) ⟨[nstates, nstates], fun t => acc (t.getD 0 0) (t.getD 1 0)⟩

variable [DecidableEq K]

/-- The number of model states, stdm.py:104 `self.nstates = offs1[-1]`. -/
def numStates : Nat := (npCumsum (k.cols.map List.prod)).getLastD 0

/-- stdm.py:1098-1116 `kernel` with the transformation of linearly equivalent rootspaces; the shapes of the arrays are those of
lines 1112-1113. -/
def kernelRot (umats : Nat → List (Nat × Nd K)) : Option (Nd K × Nd K) := do
  let T ← k.kernel
  let n := k.numStates
  let N := k.nlas.sum
  let tdm1s ← linequivLoop k.cols k.nlas.length umats
    ⟨[n, n, 2, N, N], fun t => (T (t.getD 0 0) (t.getD 1 0)).1 (t.getD 2 0) (t.getD 3 0) (t.getD 4 0)⟩
  let tdm2s ← linequivLoop k.cols k.nlas.length umats
    ⟨[n, n, 4, N, N, N, N], fun t => (T (t.getD 0 0) (t.getD 1 0)).2 (t.getD 2 0) (t.getD 3 0) (t.getD 4 0) (t.getD 5 0) (t.getD 6 0)⟩
  pure (tdm1s, tdm2s)

end Kern
end Verif.Lstdm
