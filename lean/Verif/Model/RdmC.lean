import Verif.Model.Blocks
import Mathlib.Algebra.Ring.Defs
/-!
# Model of the density-matrix accumulation kernels

/repo/lib/lassi/rdm.c and the caller that prepares their index arrays,
/repo/my_pyscf/lassi/op_o1/stdm.py:1040-1061. The complex kernels (`LASSIRDMz...`) are the same text with
another element type, so elements here range over any commutative ring.

* A buffer is an allocated length and a function; an access outside the allocated length is a memory error
  (`none`).
* `int` arithmetic is checked: a value that does not fit in 32 bits is undefined behaviour in C (`none`). All
  quantities involved are non-negative. `long` is 64 bits and is not checked.
* The iterations of an `omp for` loop are executed in an arbitrary order given as a parameter. Each iteration is
  one step; this is justified by the fact, proved with the theorems, that distinct iterations write to disjoint
  places.
-/
namespace Verif.RdmC
open Verif.Blocks

/-- A C buffer. -/
structure Buf (R : Type) where
  /-- allocated length -/
  size : Nat
  /-- contents -/
  val : Nat → R

variable {R : Type} [CommRing R]

/-- A C `int` value: `none` when it does not fit (signed overflow). -/
def i32 (x : Nat) : Option Nat := if x < 2 ^ 31 then some x else none

/-- `assert (c)` -/
def cassert (c : Bool) : Option Unit := if c then some () else none

/-- BLAS `daxpy (n, a, src+s, 1, dest+d, 1)`. -/
def axpy (n : Nat) (a : R) (src : Buf R) (s : Nat) (dest : Buf R) (d : Nat) : Option (Buf R) :=
  if s + n ≤ src.size ∧ d + n ≤ dest.size then
    some ⟨dest.size, fun x => if d ≤ x ∧ x < d + n then dest.val x + a * src.val (s + (x - d)) else dest.val x⟩
  else none

/-- rdm.c:147-160: one iteration of `LASSIRDMdputSD1`. -/
def putSD1_iter (src : Buf R) (nroots npdest npsrc SDdest_size SDsrc_size lroot nidx : Nat)
    (dIdx sIdx len : List Nat) (dest : Buf R) (i : Nat) : Option (Buf R) := do
  let iroot := i / lroot
  let j := i % lroot
  let ispin := j / nidx
  let iidx := j % nidx
  cassert (decide (iroot < nroots))
  cassert (decide (ispin < 2))
  cassert (decide (iidx < nidx))
  let si ← sIdx[iidx]?
  let di ← dIdx[iidx]?
  let n ← len[iidx]?
  let sidx ← i32 ((iroot * 2 + ispin) * npsrc + si)
  let didx ← i32 ((iroot * 2 + ispin) * npdest + di)
  cassert (decide (sidx < SDsrc_size))
  cassert (decide (didx < SDdest_size))
  axpy n 1 src sidx dest didx

/-- rdm.c:136-141: the derived sizes of `LASSIRDMdputSD1`: `npdest, npsrc, nblk, lroot, SDsrc_size, SDdest_size`. -/
def putSD1_sizes (nroots ndest nsrc nidx : Nat) : Option (Nat × Nat × Nat × Nat × Nat × Nat) := do
  let npdest ← i32 (ndest * ndest)
  let npsrc ← i32 (nsrc * nsrc)
  let nblk ← i32 (nroots * 2 * nidx)
  let lroot ← i32 (2 * nidx)
  let ss ← i32 (nroots * 2 * npsrc)
  let ds ← i32 (nroots * 2 * npdest)
  pure (npdest, npsrc, nblk, lroot, ss, ds)

/-- rdm.c:115-162 `LASSIRDMdputSD1`. `order nblk` is the order in which the iterations `0..nblk-1` happen. -/
def putSD1 (order : Nat → List Nat) (dest src : Buf R) (nroots ndest nsrc : Nat) (dIdx sIdx len : List Nat)
    (nidx : Nat) : Option (Buf R) := do
  let (npdest, npsrc, nblk, lroot, ss, ds) ← putSD1_sizes nroots ndest nsrc nidx
  (order nblk).foldlM (putSD1_iter src nroots npdest npsrc ds ss lroot nidx dIdx sIdx len) dest

/-- rdm.c:201-218: one iteration of `LASSIRDMdputSD2`. -/
def putSD2_iter (src : Buf R) (nroots npdest npsrc ntdest ntsrc SDdest_size SDsrc_size lroot lspin nidx : Nat)
    (pdest dIdx sIdx len : List Nat) (dest : Buf R) (i : Nat) : Option (Buf R) := do
  let iroot := i / lroot
  let j := i % lroot
  let ispin := j / lspin
  let j := j % lspin
  let ipdest := j / nidx
  let iidx := j % nidx
  cassert (decide (iroot < nroots))
  cassert (decide (ispin < 4))
  cassert (decide (ipdest < npsrc))
  cassert (decide (iidx < nidx))
  let rs ← i32 (iroot * 4 + ispin)
  let si ← sIdx[iidx]?
  let di ← dIdx[iidx]?
  let n ← len[iidx]?
  let pd ← pdest[ipdest]?
  let sidx := rs * ntsrc + (ipdest * npsrc + si)
  let didx := rs * ntdest + (pd * npdest + di)
  cassert (decide (sidx < SDsrc_size))
  cassert (decide (didx < SDdest_size))
  axpy n 1 src sidx dest didx

/-- rdm.c:187-195: the derived sizes of `LASSIRDMdputSD2`: `npdest, npsrc, ntdest, ntsrc, nblk, lroot, lspin,
SDsrc_size, SDdest_size`. `ntdest` and `ntsrc` have type `long` but the product `npdest*npdest` is an `int`
product. -/
def putSD2_sizes (nroots ndest nsrc nidx : Nat) :
    Option (Nat × Nat × Nat × Nat × Nat × Nat × Nat × Nat × Nat) := do
  let npdest ← i32 (ndest * ndest)
  let npsrc ← i32 (nsrc * nsrc)
  let ntdest ← i32 (npdest * npdest)
  let ntsrc ← i32 (npsrc * npsrc)
  let nblk ← i32 (nroots * 4 * npsrc * nidx)
  let lroot ← i32 (4 * npsrc * nidx)
  let lspin ← i32 (npsrc * nidx)
  let r4 ← i32 (nroots * 4)
  pure (npdest, npsrc, ntdest, ntsrc, nblk, lroot, lspin, r4 * ntsrc, r4 * ntdest)

/-- rdm.c:164-220 `LASSIRDMdputSD2`. -/
def putSD2 (order : Nat → List Nat) (dest src : Buf R) (nroots ndest nsrc : Nat) (pdest dIdx sIdx len : List Nat)
    (nidx : Nat) : Option (Buf R) := do
  let (npdest, npsrc, ntdest, ntsrc, nblk, lroot, lspin, ss, ds) ← putSD2_sizes nroots ndest nsrc nidx
  (order nblk).foldlM
    (putSD2_iter src nroots npdest npsrc ntdest ntsrc ds ss lroot lspin nidx pdest dIdx sIdx len) dest

/-- The raveled pair mask of stdm.py:1044-1046 (`mask[np.ix_(orbidx,orbidx)] = True`). -/
def pairMask (orbidx : List Bool) : List Bool := orbidx.flatMap (fun p => orbidx.map (fun q => p && q))

/-- stdm.py:1040-1061 `_orbrange_env_kwargs_orbidx`: `nsrc`, `pdest`, the three index arrays (after
`.astype (np.int32)`) and the number of blocks. -/
def orbrange (orbidx : List Bool) (nthreads : Nat) : Option (Nat × List Nat × List Nat × List Nat × List Nat × Nat) :=
  let ndest := orbidx.length
  let nsrc := orbidx.count true
  let mask := pairMask orbidx
  let actpairs := npWhere mask
  if nsrc = ndest then
    (splitContigArray (ndest ^ 2) nthreads).map fun (dblk, lblk) => (nsrc, actpairs, dblk, dblk, lblk, lblk.length)
  else
    let (sblk, dblk, lblk) := getContigBlks mask
    some (nsrc, actpairs, dblk, sblk.map Int.toNat, lblk.map Int.toNat, lblk.length)

/-- rdm.c:99-104: the slice of a thread in `LASSIRDMdsumSD`. -/
def threadSlice (n nt it : Nat) : Nat × Nat :=
  let nel0 := n / nt
  let nel1 := n % nt
  (nel0 * it + min nel1 it, if it < nel1 then nel0 + 1 else nel0)

/-- rdm.c:84-113 `LASSIRDMdsumSD` executed by `nt` threads. `order` lists the (thread, SI root) pairs in the
order in which their `daxpy` calls happen. (Integer sizes are not checked here.) -/
def sumSD (order : List (Nat × Nat)) (nt : Nat) (dest : Buf R) (fac : Nat → R) (src : Buf R) (n : Nat) : Option (Buf R) :=
  order.foldlM (fun dest (p : Nat × Nat) =>
    let (tstart, tlen) := threadSlice n nt p.1
    axpy tlen (fac p.2) src tstart dest (tstart + p.2 * n)) dest

/-- rdm.c:44-82 `LASSIRDMdgetwgtfac`: `chunks` lists, for each thread in the order in which the threads enter the
critical section, the elements that thread was given. (Integer sizes are not checked here.) -/
def getwgtfac (chunks : List (List Nat)) (fac wgt : Nat → R) (sivec : Nat → R) (nbas : Nat) (bra ket : Nat → Nat) :
    Nat → R :=
  chunks.foldl (fun fac elems =>
    let my : Nat → R := elems.foldl (fun my e =>
      fun iroot => my iroot + sivec (iroot * nbas + bra e) * sivec (iroot * nbas + ket e) * wgt e) (fun _ => 0)
    fun iroot => fac iroot + my iroot) fac

end Verif.RdmC
