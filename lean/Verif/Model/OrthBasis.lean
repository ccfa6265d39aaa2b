import Verif.Model.Addr
import Mathlib.Algebra.BigOperators.Group.Finset.Basic
import Mathlib.Algebra.BigOperators.Ring.Finset
import Mathlib.Data.List.GetD
import Mathlib.Analysis.Real.Sqrt
/-!
# Model of the orthonormal-basis bookkeeping

/repo/my_pyscf/lassi/basis.py
-/
namespace Verif.OrthBasis
open Verif.Addr

/-- basis.py:360-361, 421-422, 450-451: `offs1 = np.cumsum (n); offs0 = offs1 - n`. -/
def offs0 (n : List Nat) : List Nat := List.zipWith (· - ·) (npCumsum n) n

/-- `np.searchsorted (l, x, side='right')` on a non-decreasing array (external). -/
def searchsortedRight (l : List Nat) (x : Nat) : Nat := (l.filter (· ≤ x)).length

/-- basis.py:484-489 `OrthBasis.split_addrs_by_blocks` and 380-384 `NullOrthBasis.split_addrs_by_blocks`, one address;
`n` is `nprods_orth` (`nprods_raw`). Index -1 (address below the first offset) is `none`; it needs an empty table. -/
def splitAddr (n : List Nat) (addr : Nat) : Option (Nat × Nat) :=
  let s := searchsortedRight (offs0 n) addr
  if s = 0 then none
  else
    let blk := s - 1
    let off := (offs0 n).getD blk 0
    if off ≤ addr then some (blk, addr - off) else none

/-- basis.py:437-440: `nprods_orth`, from the list of `manifold.orth_shape`. -/
def nprodsOrth (shapes : List (Nat × Nat)) : List Nat := shapes.flatMap (fun s => List.replicate s.1 s.2)

/-- basis.py:437-439: `oblock_manifold_addr` (rows from manifold `i0` on). -/
def oblockManifoldAddr : Nat → List (Nat × Nat) → List (Nat × Nat)
  | _, [] => []
  | i, s :: l => (List.range s.1).map (fun j => (i, j)) ++ oblockManifoldAddr (i + 1) l

/-- basis.py:329-332 `idx2addrs_orth` with 501-506 `split_oblocks_by_manifolds`, one address:
`(manifold, spin address, spatial address)`. -/
def idx2addrsOrth (shapes : List (Nat × Nat)) (addr : Nat) : Option (Nat × Nat × Nat) := do
  let (blk, p) ← splitAddr (nprodsOrth shapes) addr
  let (i, t) ← (oblockManifoldAddr 0 shapes)[blk]?
  return (i, t, p)

/-- basis.py:349-352 `get_manifold_orth_offs` -/
def manifoldOrthOffs (shapes : List (Nat × Nat)) (iman : Nat) : Nat × Nat :=
  let o0 := 0 + ((List.range iman).map (fun i => (shapes.getD i (0, 0)).1 * (shapes.getD i (0, 0)).2)).sum
  (o0, o0 + (shapes.getD iman (0, 0)).1 * (shapes.getD iman (0, 0)).2)

/-! ## Raw basis -/

/-- basis.py:151-160: one row of `RootspaceManifold.prod_idx`: the raw addresses of the product states of the
rootspaces `block`. -/
def prodIdx (nprods : List Nat) (block : List Nat) : List Nat :=
  block.flatMap (fun r => List.range' ((offs0 nprods).getD r 0) (nprods.getD r 0))

/-- basis.py:446-449: the loop over the roots of one block, `k` onwards. A row of the table holds
`root_block_addr[iroot] = [nman,k]` and `root_block_prod_offs[iroot] = offs[k]`; `none` is the initial -1. -/
def rootTableBlock (nman : Nat) (offs : List Nat) : Nat → List Nat → List (Option (Nat × Nat × Nat)) →
    List (Option (Nat × Nat × Nat))
  | _, [], tab => tab
  | k, r :: block, tab => rootTableBlock nman offs (k + 1) block (tab.set r (some (nman, k, offs.getD k 0)))

/-- basis.py:436-450: the loop over blocks, `nman` onwards. -/
def rootTableLoop (nprods : List Nat) : Nat → List (List Nat) → List (Option (Nat × Nat × Nat)) →
    List (Option (Nat × Nat × Nat))
  | _, [], tab => tab
  | nman, b :: blocks, tab => rootTableLoop nprods (nman + 1) blocks
      (rootTableBlock nman (offs0 (b.map (fun r => nprods.getD r 0))) 0 b tab)

/-- basis.py:426-451: the two tables over rootspaces, with the final assertion. -/
def rootTable (nprods : List Nat) (blocks : List (List Nat)) : Option (List (Nat × Nat × Nat)) :=
  (rootTableLoop nprods 0 blocks (List.replicate nprods.length none)).mapM id

/-- basis.py:493-499 `split_addrs_by_rblocks`, one address: `(block, column)`. -/
def splitRblocks (nprods : List Nat) (blocks : List (List Nat)) (addr : Nat) : Option (Nat × Nat) := do
  let tab ← rootTable nprods blocks
  let (root, col) ← splitAddr nprods addr
  let (blk, _, off) ← tab[root]?
  return (blk, col + off)

/-! ## Change of basis -/

/-- A manifold: the rows of `m_blocks`, the matrix `xmat` (`none`, or the number of columns and the entries), the
number of columns of `umat` and its entries. -/
structure Man (K : Type) where
  mBlocks : List (List Nat)
  xmat : Option (Nat × (Nat → Nat → K))
  nt : Nat
  umat : Nat → Nat → K

variable {K : Type}

/-- basis.py:161-170: number of raw products in one block, `offs1[-1]` of the first block. -/
def Man.rawSize (nprods : List Nat) (m : Man K) : Nat := ((m.mBlocks.headD []).map (fun r => nprods.getD r 0)).sum

/-- basis.py:166-171: `orth_shape[1]`. -/
def Man.ncol (nprods : List Nat) (m : Man K) : Nat := match m.xmat with | none => m.rawSize nprods | some (c, _) => c

/-- `arr[i:j] = vals` for arrays as functions of the index; the lengths agree at every use. -/
def setSlice (arr : Nat → K) (i j : Nat) (vals : Nat → K) : Nat → K :=
  fun n => if i ≤ n ∧ n < j then vals (n - i) else arr n

/-- `arr[idx] = vals` for an index array, from position `c` on. -/
def scatter (vals : Nat → K) : Nat → List Nat → (Nat → K) → (Nat → K)
  | _, [], arr => arr
  | c, n :: idx, arr => scatter vals (c + 1) idx (Function.update arr n (vals c))

/-- `np.tensordot (xmat.T, rawarr[mirror], axes=1)`, or `rawarr[mirror]` if there is no `xmat`. -/
def xT [NonUnitalNonAssocSemiring K] (m : Man K) (mirror : List Nat) (raw : Nat → K) : Nat → K :=
  match m.xmat with
  | none => fun c => raw (mirror.getD c 0)
  | some (_, x) => fun c => ∑ q ∈ Finset.range mirror.length, x q c * raw (mirror.getD q 0)

/-- `np.tensordot (xmat.conj (), ortharr[i:j], axes=1)`, or `ortharr[i:j]`. -/
def xC [NonUnitalNonAssocSemiring K] [Star K] (m : Man K) (orth : Nat → K) : Nat → K :=
  match m.xmat with
  | none => orth
  | some (nc, x) => fun q => ∑ c ∈ Finset.range nc, star (x q c) * orth c

/-- basis.py:566-579: the loop over manifolds and blocks of `OrthBasis._matvec`, flattened to the pairs
(manifold, block); `off` is `offs_orth[p,0]`. -/
def matvecLoop [NonUnitalNonAssocSemiring K] (nprods : List Nat) (raw : Nat → K) :
    Nat → List (Man K × List Nat) → (Nat → K) → (Nat → K)
  | _, [], orth => orth
  | off, (m, b) :: l, orth => matvecLoop nprods raw (off + m.ncol nprods) l
      (setSlice orth off (off + m.ncol nprods) (xT m (prodIdx nprods b) raw))

/-- The pairs (manifold, block) in the order of the loops. -/
def manBlocks (mans : List (Man K)) : List (Man K × List Nat) := mans.flatMap (fun m => m.mBlocks.map (fun b => (m, b)))

/-- basis.py:559-579 `OrthBasis._matvec`, one column. -/
def matvec [NonUnitalNonAssocSemiring K] (nprods : List Nat) (mans : List (Man K)) (raw : Nat → K) : Nat → K :=
  matvecLoop nprods raw 0 (manBlocks mans) (fun _ => 0)

/-- basis.py:588-601: the loop of `OrthBasis._rmatvec`. -/
def rmatvecLoop [NonUnitalNonAssocSemiring K] [Star K] (nprods : List Nat) (orth : Nat → K) :
    Nat → List (Man K × List Nat) → (Nat → K) → (Nat → K)
  | _, [], raw => raw
  | off, (m, b) :: l, raw => rmatvecLoop nprods orth (off + m.ncol nprods) l
      (scatter (xC m (fun c => orth (off + c))) 0 (prodIdx nprods b) raw)

/-- basis.py:581-601 `OrthBasis._rmatvec`, one column. -/
def rmatvec [NonUnitalNonAssocSemiring K] [Star K] (nprods : List Nat) (mans : List (Man K)) (orth : Nat → K) : Nat → K :=
  rmatvecLoop nprods orth 0 (manBlocks mans) (fun _ => 0)

/-- basis.py:673-686: one manifold of `SpinCoupledOrthBasis._matvec`; entry `(t, c)` of `uxarr` is at `t*ncol + c`. -/
def uxRow [NonUnitalNonAssocSemiring K] (nprods : List Nat) (m : Man K) (raw : Nat → K) : Nat → K :=
  fun n => ∑ j ∈ Finset.range m.mBlocks.length,
    m.umat j (n / m.ncol nprods) * xT m (prodIdx nprods (m.mBlocks.getD j [])) raw (n % m.ncol nprods)

/-- basis.py:672-687: the loop of `SpinCoupledOrthBasis._matvec`. -/
def scMatvecLoop [NonUnitalNonAssocSemiring K] (nprods : List Nat) (raw : Nat → K) :
    Nat → List (Man K) → (Nat → K) → (Nat → K)
  | _, [], orth => orth
  | off, m :: l, orth => scMatvecLoop nprods raw (off + m.nt * m.ncol nprods) l
      (setSlice orth off (off + m.nt * m.ncol nprods) (uxRow nprods m raw))

/-- basis.py:666-687 `SpinCoupledOrthBasis._matvec`, one column. -/
def scMatvec [NonUnitalNonAssocSemiring K] (nprods : List Nat) (mans : List (Man K)) (raw : Nat → K) : Nat → K :=
  scMatvecLoop nprods raw 0 mans (fun _ => 0)

/-- basis.py:707-708: `for mirror, xarr in zip (prod_idx, uxarr): rawarr[mirror] = xarr`, from block `j` on.
`blk j` is the array `orth` contracted with row `j` of `umat`. -/
def scScatter [NonUnitalNonAssocSemiring K] [Star K] (nprods : List Nat) (m : Man K) (blk : Nat → Nat → K) :
    Nat → List (List Nat) → (Nat → K) → (Nat → K)
  | _, [], raw => raw
  | j, b :: l, raw => scScatter nprods m blk (j + 1) l (scatter (xC m (blk j)) 0 (prodIdx nprods b) raw)

/-- basis.py:695-709: the loop of `SpinCoupledOrthBasis._rmatvec`. -/
def scRmatvecLoop [NonUnitalNonAssocSemiring K] [Star K] (nprods : List Nat) (orth : Nat → K) :
    Nat → List (Man K) → (Nat → K) → (Nat → K)
  | _, [], raw => raw
  | off, m :: l, raw => scRmatvecLoop nprods orth (off + m.nt * m.ncol nprods) l
      (scScatter nprods m (fun j c => ∑ t ∈ Finset.range m.nt, m.umat j t * orth (off + (t * m.ncol nprods + c)))
        0 m.mBlocks raw)

/-- basis.py:689-710 `SpinCoupledOrthBasis._rmatvec`, one column. -/
def scRmatvec [NonUnitalNonAssocSemiring K] [Star K] (nprods : List Nat) (mans : List (Man K)) (orth : Nat → K) : Nat → K :=
  scRmatvecLoop nprods orth 0 mans (fun _ => 0)

/-! ## Change of total multiplicity -/

/-- A pair of manifolds of the two bases: numbers of spin strings of the source and the target, number of spatial
states (`xmat` is shared), and the matrix `omat` (basis.py:809-822). -/
structure ShiftMan (K : Type) where
  it : Nat
  ft : Nat
  p : Nat
  omat : Nat → Nat → K

/-- basis.py:819: `np.abs (t_f - t_i[None,:]).sum (1)`, one row. -/
def tDist (a b : List Int) : Nat := (List.zipWith (fun x y => (x - y).natAbs) a b).sum

/-- basis.py:814-822: column `t_i` of `SmultShifterManifold.omat`; `tF` are the target spin strings. -/
noncomputable def omatCol (tF : List (List Int)) (ti : List Int) (k : Nat) : ℝ :=
  let dt := tF.map (fun t => tDist t ti)
  let f := dt.map (fun d => decide (some d = dt.min?))
  if f.getD k false then 1 / Real.sqrt (f.count true) else 0

/-- basis.py:824-833 `SmultShifterManifold.__call__`, one column: reshape to `(it, p)`, multiply by `omat`, flatten.
The array `arr` has `it*p` entries at every use, so `frows = ft*p` and the reshapes succeed. -/
def ShiftMan.call [NonUnitalNonAssocSemiring K] (m : ShiftMan K) (arr : Nat → K) : Nat → K :=
  fun n => ∑ t ∈ Finset.range m.it, m.omat (n / m.p) t * arr (t * m.p + n % m.p)

/-- basis.py:852-859: the loop of `SmultShifter._matvec`. The offsets move only inside the `if`. -/
def shiftLoop [NonUnitalNonAssocSemiring K] (iarr : Nat → K) : Nat → Nat → List (ShiftMan K) → (Nat → K) → (Nat → K)
  | _, _, [], farr => farr
  | i0, f0, m :: l, farr =>
    let i1 := i0 + m.it * m.p
    let f1 := f0 + m.ft * m.p
    if 0 < i1 - i0 ∧ 0 < f1 - f0 then
      shiftLoop iarr i1 f1 l (setSlice farr f0 f1 (m.call (fun n => iarr (i0 + n))))
    else shiftLoop iarr i0 f0 l farr

/-- basis.py:845-859 `SmultShifter._matvec`, one column, before the final normalization; `iarr` is the vector in the
source basis. -/
def shift [NonUnitalNonAssocSemiring K] (mans : List (ShiftMan K)) (iarr : Nat → K) : Nat → K :=
  shiftLoop iarr 0 0 mans (fun _ => 0)

end Verif.OrthBasis
