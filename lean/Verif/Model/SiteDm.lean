import Verif.Model.Umat
import Mathlib.Algebra.Field.Defs
/-!
# Model of the reduced density matrices in the product basis (/repo/my_pyscf/lassi/sitools.py:9-131)

Scalars are a field `K` with a conjugation `conj` (`x.conj ()`); the square root hidden in `linalg.norm` is the parameter
`nrm`, of which the theorems only assume that its square is the sum of the squared moduli.
-/
namespace Verif.SiteDm
open Verif.Np Verif.Umat Verif.Addr

variable {K : Type}

/-- NumPy's `a.reshape (-1, *dims)`; `none` is the ValueError for a size that is not a multiple (or for a zero extent,
for which `-1` cannot be inferred). -/
def reshapeInfer (a : Nd K) (dims : List Nat) : Option (Nd K) :=
  if dims.prod = 0 ∨ a.size % dims.prod ≠ 0 then none else a.reshape (a.size / dims.prod :: dims)

/-- NumPy's `np.moveaxis (a, source, destination)` for non-negative axes, `pairs` being `sorted (zip (destination, source))`:
the axes not moved keep their order, and the moved ones are inserted one after the other; `none` is the error for a repeated
axis. -/
def moveaxis (a : Nd K) (pairs : List (Nat × Nat)) : Option (Nd K) :=
  if (pairs.map Prod.snd).Nodup then
    some (a.transpose (pairs.foldl (fun order ds => order.insertIdx ds.1 ds.2)
      ((List.range a.shape.length).filter fun n => n ∉ pairs.map Prod.snd)))
  else none

/-- sitools.py:16 `if si.ndim==1: si = si[:,None]`. -/
def atLeast2d (si : Nd K) : Nd K :=
  if si.shape.length = 1 then ⟨si.shape ++ [1], fun t => si.get (t.take 1)⟩ else si

section
variable [Field K] [DecidableEq K]

/-- sitools.py:9-33 `decompose_sivec_by_rootspace` (without `idx_space`): per rootspace the squared norms of the columns of
its block of rows, and the block with every column of nonzero norm divided by it. `cols` are the columns of `lroots`. -/
def decompose (nrm : List K → K) (si : Nd K) (cols : List (List Nat)) : List ((Nat → K) × Nd K) :=
  let si := atLeast2d si
  let nstates := cols.map List.prod
  let offs := 0 :: npCumsum nstates
  (List.range cols.length).map fun space =>
    let blk := si.slice0 (offs.getD space 0) (offs.getD (space + 1) 0)
    let coeff := fun c => nrm ((List.range (blk.shape.getD 0 0)).map fun a => blk.get [a, c])
    (fun c => coeff c ^ 2,
     ⟨blk.shape, fun t => if coeff (t.getD 1 0) ≠ 0 then blk.get t / coeff (t.getD 1 0) else blk.get t⟩)
end

section
variable [CommRing K] (conj : K → K)

/-- `lib.einsum ('api,aqi->ipq', bra.conj (), ket)`; `none` for axes of different extent. -/
def einsumSdm1 (bra ket : Nd K) : Option (Nd K) :=
  if bra.shape.getD 0 0 = ket.shape.getD 0 0 ∧ bra.shape.getD 2 0 = ket.shape.getD 2 0 then
    some ⟨[bra.shape.getD 2 0, bra.shape.getD 1 0, ket.shape.getD 1 0], fun t =>
      ∑ a ∈ Finset.range (bra.shape.getD 0 0),
        conj (bra.get [a, t.getD 1 0, t.getD 0 0]) * ket.get [a, t.getD 2 0, t.getD 0 0]⟩
  else none

/-- sitools.py:35-64 `_make_sdm1`. `np.asfortranarray` changes the memory layout, not the entries. -/
def makeSdm1Core (sivec : Nd K) (lroots : List Nat) (site : Nat) : Option (Nd K) :=
  let nsites := lroots.length
  let nroots := sivec.size / lroots.prod
  if sivec.size % lroots.prod ≠ 0 then none else do
    let s1 ← sivec.reshapeF (lroots ++ [nroots])
    let idx := [site, nsites]
    let idx := if site < nsites - 1 then List.range' (site + 1) (nsites - (site + 1)) ++ idx else idx
    let idx := if 0 < site then List.range site ++ idx else idx
    let s2 ← reshapeInfer (s1.transpose idx) [lroots.getD site 0, nroots]
    einsumSdm1 conj s2 s2

/-- sitools.py:74-79: the loop over the sites, `k` being `isite`. Returns the transformed vector and `lroots_ket`, which is
changed in place. -/
def transLoop (lbra : List Nat) (site : Nat) : Nat → List (Nd K) → Nd K → List Nat → Option (Nd K × List Nat)
  | _, [], ket, lket => some (ket, lket)
  | k, s0 :: ovlp, ket, lket =>
    if k = site then transLoop lbra site (k + 1) ovlp ket lket else do
      let ket ← umatDot1frag' ket s0.T lket k
      transLoop lbra site (k + 1) ovlp ket (lket.set k (lbra.getD k 0))

/-- sitools.py:83-86: order of the axes of a vector of one rootspace, the site `site` moved behind the other sites. -/
def siteMatrix (sivec : Nd K) (lroots : List Nat) (nroots site : Nat) : Option (Nd K) := do
  let s1 ← sivec.reshapeF (lroots ++ [nroots])
  let s2 ← moveaxis s1 [(lroots.length - 1, site)]
  reshapeInfer s2 [lroots.getD site 0, nroots]

/-- sitools.py:66-88 `_trans_sdm1`. The second component is the array `lroots_ket` after the call: the code assigns to its
entries, and the caller's array is the same object (or a view of the caller's array, `lroots[:,jx]`). -/
def transSdm1 (bra : Nd K) (lbra : List Nat) (ket : Nd K) (lket : List Nat) (ovlp : List (Nd K)) (site : Nat) :
    Option (Nd K × List Nat) :=
  if bra.size % lbra.prod ≠ 0 then none
  else if ket.size % lket.prod ≠ 0 then none
  else if bra.size / lbra.prod ≠ ket.size / lket.prod then none
  else
    let nroots := bra.size / lbra.prod
    do
      let (ket, lket) ← transLoop lbra site 0 ovlp ket lket
      let b ← siteMatrix bra lbra nroots site
      let k ← siteMatrix ket lket nroots site
      let d ← einsumSdm1 conj b k
      some (d, lket)

/-- sitools.py:90-119 `_make_sdm2`. -/
def makeSdm2Core (sivec : Nd K) (lroots : List Nat) (site1 site2 : Nat) : Option (Nd K) :=
  let nsites := lroots.length
  let nroots := sivec.size / lroots.prod
  if sivec.size % lroots.prod ≠ 0 then none else do
    let s1 ← sivec.reshapeF (lroots ++ [nroots])
    let s2 ← moveaxis s1 [(nsites - 2, site1), (nsites - 1, site2)]
    let s ← reshapeInfer s2 [lroots.getD site1 0, lroots.getD site2 0, nroots]
    -- lib.einsum ('apqi,arsi->iprqs', sivec.conj(), sivec)
    some ⟨[nroots, lroots.getD site1 0, lroots.getD site1 0, lroots.getD site2 0, lroots.getD site2 0], fun t =>
      ∑ a ∈ Finset.range (s.shape.getD 0 0),
        conj (s.get [a, t.getD 1 0, t.getD 3 0, t.getD 0 0]) * s.get [a, t.getD 2 0, t.getD 4 0, t.getD 0 0]⟩
end

/-- sitools.py:122-131 `make_sdm1`: the density matrix of one rootspace, times its weight. -/
def makeSdm1 [Field K] [DecidableEq K] (conj : K → K) (nrm : List K → K) (si : Nd K) (cols : List (List Nat))
    (iroot ifrag : Nat) : Option (Nd K) := do
  let (w, coeffs) ← (decompose nrm si cols)[iroot]?
  let d ← makeSdm1Core conj coeffs (cols.getD iroot []) ifrag
  some ⟨d.shape, fun t => d.get t * w (t.getD 0 0)⟩

end Verif.SiteDm
