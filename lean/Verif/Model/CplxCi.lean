import Verif.Model.HalfOp
import Mathlib.Data.Complex.Basic
/-!
# Model of the contraction of complex CI vectors with complex two-electron integrals
(/repo/lib/pbclas/pbc_fci_contract_opt.c, /repo/my_pyscf/pbc/fci/direct_spin1_cplx.py, direct_spin1_cplx_opt.py, direct_spin0_cplx.py)

* Numbers are exact real and complex numbers. A C array is a function of the flat index; the size of its allocation is not
  modelled. `int` overflow is not modelled.
* A compressed link table (`FCIcompress_link`, external) is, for each string, a list of entries `(a, i, addr, sign)`.
* The OpenMP threads are a parameter (`Sched`): in which order the iterations of the `omp for` loop happen, which thread
  executes which iteration, and in which order the threads enter the critical section. Each iteration is one step: an iteration
  writes the row `strk` of `ci1` and the buffer of its own thread only, and the loop ends with a barrier.
-/
namespace Verif.CplxCi
open Verif.FciRdm Verif.HalfOp

/-- An entry of a link table: `EXTRACT_CRE`, `EXTRACT_DES`, `EXTRACT_ADDR`, `EXTRACT_SIGN`. -/
structure Lk where
  a : Nat
  i : Nat
  addr : Nat
  sign : Int
deriving DecidableEq, Repr

/-- A link table: the entries of each string. -/
abbrev Tab := Nat → List Lk

/-- A C array of complex numbers. -/
abbrev Flat := Nat → ℂ

/-- `f[x] += v`. -/
noncomputable def addAt (f : Flat) (x : Nat) (v : ℂ) : Flat := fun y => if y = x then f y + v else f y

/-- `FCI_t1ci_sf` of PySCF (external, real): the array `t1[k, i, a]` of `(i'a ci0)` at the strings `stra`, `strb + k`, `k < bcount`,
and the sum of the squares of the coefficients that were read. -/
noncomputable def t1ciSf (ci0 : Nat → ℝ) (bcount stra strb norb nb : Nat) (la lb : Tab) : (Nat → ℝ) × ℝ :=
  (fun x => ((List.range bcount).map fun k =>
      ((la stra).map fun l => if x = k * (norb * norb) + (l.i * norb + l.a) then (l.sign : ℝ) * ci0 (l.addr * nb + (strb + k)) else 0).sum +
      ((lb (strb + k)).map fun l => if x = k * (norb * norb) + (l.i * norb + l.a) then (l.sign : ℝ) * ci0 (stra * nb + l.addr) else 0).sum).sum,
    ((List.range bcount).map fun k =>
      ((la stra).map fun l => ci0 (l.addr * nb + (strb + k)) * ci0 (l.addr * nb + (strb + k))).sum +
      ((lb (strb + k)).map fun l => ci0 (stra * nb + l.addr) * ci0 (stra * nb + l.addr)).sum).sum)

/-- pbc_fci_contract_opt.c:60-90 `spread_a_t1_z`. -/
noncomputable def spreadA (ci1 t1 : Flat) (bcount stra strb norb nstrb : Nat) (la : Tab) : Flat :=
  (la stra).foldl (fun c l => (List.range bcount).foldl (fun c k =>
    addAt c (strb + l.addr * nstrb + k) (if 0 < l.sign then t1 (l.a * norb + l.i + k * (norb * norb)) else
      -t1 (l.a * norb + l.i + k * (norb * norb)))) c) ci1

/-- pbc_fci_contract_opt.c:93-115 `spread_b_t1_z`. -/
noncomputable def spreadB (ci1 t1 : Flat) (bcount stra strb norb nstrb : Nat) (lb : Tab) : Flat :=
  (List.range bcount).foldl (fun c s => (lb (strb + s)).foldl (fun c l =>
    addAt c (stra * nstrb + l.addr) ((l.sign : ℂ) * t1 (s * (norb * norb) + (l.a * norb + l.i)))) c) ci1

/-- pbc_fci_contract_opt.c:118-128 `axpy2d_z`, with `out` shifted by `off`. -/
noncomputable def axpy2d (out : Flat) (off : Nat) (inp : Flat) (count no ni : Nat) : Flat :=
  (List.range count).foldl (fun c i => (List.range ni).foldl (fun c j => addAt c (off + i * no + j) (inp (i * ni + j))) c) out

/-- The array of integrals in memory: `eri[p,q,r,u]` in row-major order. -/
def flat4 (eri : M4 ℂ) (n : Nat) : Flat := fun x => eri (x / n ^ 3) (x / n ^ 2 % n) (x / n % n) (x % n)

/-- `zgemm ('N', 'N', nnorb, bcount, nnorb, 1, eri, nnorb, t1Z, nnorb, 0, vt1Z, nnorb)` (BLAS, external; arrays by columns). -/
noncomputable def zgemm (eri t1 : Flat) (nnorb : Nat) : Flat := fun x =>
  ∑ j ∈ Finset.range nnorb, eri (j * nnorb + x % nnorb) * t1 (x / nnorb * nnorb + j)

/-- pbc_fci_contract_opt.c:130-190 `ctr_rhf2e_kern_zgemm` and 206-263 `ctr_rhf2e_kern_zgemm_spin0` (the same text with one link table
for both spins): `(ci1, ci1buf)` after the call. `thr` is `CSUMTHR`. `pack_z_from_ri` (35-44) puts the two real arrays together. -/
noncomputable def kern (thr : ℝ) (eri : Flat) (ciR ciI : Nat → ℝ) (ci1 buf : Flat) (bcountA ncol bcount stra strb norb nb : Nat)
    (la lb : Tab) : Flat × Flat :=
  let R := t1ciSf ciR bcount stra strb norb nb la lb
  let I := t1ciSf ciI bcount stra strb norb nb la lb
  if R.2 > thr ∨ I.2 > thr then
    let vt1 := zgemm eri (fun x => ⟨R.1 x, I.1 x⟩) (norb * norb)
    (spreadB ci1 vt1 bcount stra strb norb nb lb, spreadA buf vt1 bcountA stra 0 norb ncol la)
  else (ci1, buf)

/-- The OpenMP threads during the block of spin-down strings that begins at `ib`. -/
structure Sched where
  /-- number of threads -/
  threads : Nat
  /-- the iterations of the loop over `strk`, in the order in which they happen -/
  order : Nat → List Nat
  /-- the thread that executes an iteration -/
  tid : Nat → Nat → Nat
  /-- the order in which the threads enter the critical section -/
  crit : Nat → List Nat

/-- pbc_fci_contract_opt.c:277-282, 415-420: the block size. -/
def blkSize (strb_blksize : Int) (nb : Nat) : Nat :=
  let b := if strb_blksize ≤ 0 then 240 else strb_blksize.toNat
  if b > nb then nb else b

/-- `for (ib = 0; ib < nb; ib += blk)`. -/
def blocks (nb blk : Nat) : List Nat := (List.range ((nb + blk - 1) / blk)).map (· * blk)

/-- One turn of the loop over the blocks, pbc_fci_contract_opt.c:325-353 and 457-505. `cntA`, `cntB` are the values of
`bcount_for_spread_a` and `bcount` for the row `strk`. -/
noncomputable def block (thr : ℝ) (eri : Flat) (ciR ciI : Nat → ℝ) (norb na nb : Nat) (la lb : Tab) (S : Sched) (cntA cntB : Nat → Nat)
    (blen : Nat) (ci1 : Flat) (ib : Nat) : Flat :=
  let st := (S.order ib).foldl (fun (st : Flat × (Nat → Flat)) strk =>
    let t := S.tid ib strk
    let r := kern thr eri ciR ciI st.1 (st.2 t) (cntA strk) blen (cntB strk) strk ib norb nb la lb
    (r.1, Function.update st.2 t r.2)) (ci1, fun _ _ => 0)
  (S.crit ib).foldl (fun ci1 t => axpy2d ci1 ib (st.2 t) na nb blen) st.1

/-- pbc_fci_contract_opt.c:265-373 `FCIcontract_2es1_zgemm_blksize` (`unpack_z_to_ri`, 47-57, takes the real and imaginary parts). -/
noncomputable def contract2es1 (thr : ℝ) (eri : M4 ℂ) (ci0 : Flat) (norb na nb : Nat) (la lb : Tab) (strb_blksize : Int) (S : Sched) : Flat :=
  let blk := blkSize strb_blksize nb
  (blocks nb blk).foldl (fun ci1 ib =>
    let blen := min blk (nb - ib)
    block thr (flat4 eri norb) (fun x => (ci0 x).re) (fun x => (ci0 x).im) norb na nb la lb S (fun _ => blen) (fun _ => blen) blen ci1 ib)
    (fun _ => 0)

/-- pbc_fci_contract_opt.c:404-523 `FCIcontract_2es1_zgemm_spin0_blksize`. -/
noncomputable def contractSpin0 (thr : ℝ) (eri : M4 ℂ) (ci0 : Flat) (norb na : Nat) (lk : Tab) (strb_blksize : Int) (S : Sched) : Flat :=
  let blk := blkSize strb_blksize na
  (blocks na blk).foldl (fun ci1 ib =>
    let blen := min blk (na - ib)
    block thr (flat4 eri norb) (fun x => (ci0 x).re) (fun x => (ci0 x).im) norb na na lk lk S
      (fun strk => min blen (strk - ib)) (fun strk => min blen (strk + 1 - ib)) blen ci1 ib)
    (fun _ => 0)

/-- direct_spin1_cplx_opt.py:52-56 = direct_spin0_cplx.py:48-52: the block size that the callers choose (`np.ceil` of a quotient; the
quotient is exact here). -/
def pyBlk (nb : Nat) : Nat :=
  if nb < 1000 then nb else
    let x := (nb + 999) / 1000
    (nb + x - 1) / x

/-- A CI matrix in row-major order, and back. -/
def toFlat {K : Type} (nb : Nat) (c : Arr K) : Nat → K := fun x => c (x / nb) (x % nb)
def ofFlat {K : Type} (nb : Nat) (f : Nat → K) : Arr K := fun i j => f (i * nb + j)

/-- direct_spin1_cplx_opt.py:22-68 `contract_2e`; the arrays have the shapes and types that the assertions ask for. `la`, `lb` are
`link_index`, with `na` and `nb` rows. -/
noncomputable def contract2e (thr : ℝ) (eri : M4 ℂ) (ci : Arr ℂ) (norb na nb : Nat) (la lb : Tab) (S : Sched) : Arr ℂ :=
  ofFlat nb (contract2es1 thr eri (toFlat nb ci) norb na nb la lb (pyBlk nb) S)

/-- direct_spin0_cplx.py:21-67 `contract_2e_spin0`; `none` when `na != nb` or `nlinka != nlinkb`. -/
noncomputable def contract2eSpin0 (thr : ℝ) (eri : M4 ℂ) (ci : Arr ℂ) (norb na nb nlinka nlinkb : Nat) (la : Tab) (S : Sched) :
    Option (Arr ℂ) :=
  if na = nb ∧ nlinka = nlinkb then
    let out := ofFlat na (contractSpin0 thr eri (toFlat na ci) norb na la (pyBlk nb) S)
    some fun i j => out i j + out j i
  else none

/-- PySCF's real routines, external: `FCIcontract_a_1e_nosym` followed by `FCIcontract_b_1e_nosym`, and `FCIcontract_2es1`, for `norb`
orbitals and `nelec` electrons. -/
structure RealOps where
  c1 : M2 ℝ → Arr ℝ → Nat → Nat × Nat → Arr ℝ
  c2 : M4 ℝ → Arr ℝ → Nat → Nat × Nat → Arr ℝ

/-- direct_spin1_cplx.py:47-101 `contract_1e` for complex arguments: four real contractions. -/
noncomputable def contract1eCplx (P : RealOps) (h1e : M2 ℂ) (ci : Arr ℂ) (norb : Nat) (nelec : Nat × Nat) : Arr ℂ :=
  let hR : M2 ℝ := fun p q => (h1e p q).re
  let hI : M2 ℝ := fun p q => (h1e p q).im
  let cR : Arr ℝ := fun i j => (ci i j).re
  let cI : Arr ℝ := fun i j => (ci i j).im
  fun i j => ⟨P.c1 hR cR norb nelec i j - P.c1 hI cI norb nelec i j, P.c1 hR cI norb nelec i j + P.c1 hI cR norb nelec i j⟩

/-- direct_spin1_cplx.py:103-151 `contract_2e` for complex arguments: four real contractions. -/
noncomputable def contract2eCplx (P : RealOps) (eri : M4 ℂ) (ci : Arr ℂ) (norb : Nat) (nelec : Nat × Nat) : Arr ℂ :=
  let hR : M4 ℝ := fun p q r u => (eri p q r u).re
  let hI : M4 ℝ := fun p q r u => (eri p q r u).im
  let cR : Arr ℝ := fun i j => (ci i j).re
  let cI : Arr ℝ := fun i j => (ci i j).im
  fun i j => ⟨P.c2 hR cR norb nelec i j - P.c2 hI cI norb nelec i j, P.c2 hR cI norb nelec i j + P.c2 hI cR norb nelec i j⟩

/-- direct_spin1_cplx.py:153-175 `absorb_h1e` for complex arguments: `nel` is the number of electrons. Simplification: the code divides by
`nel + 1e-100`. The loop over `k` adds `f1e` to `h2e[k,k,:,:]` and `h2e[:,:,k,k]`. -/
noncomputable def absorb (h1e : M2 ℂ) (eri : M4 ℂ) (norb nel : Nat) (fac : ℂ) : M4 ℂ :=
  let f : M2 ℂ := fun p q => (h1e p q - (∑ i ∈ Finset.range norb, eri p i i q) * (1 / 2)) * (1 / (nel : ℂ))
  fun p q r u => (eri p q r u + (if p = q then f r u else 0) + (if r = u then f p q else 0)) * fac

/-- direct_spin1_cplx.py:244-259 `energy`: `np.vdot (ci, contract_2e (absorb_h1e (h1e, eri, …, 0.5), ci))`. -/
noncomputable def energy (c2 : M4 ℂ → Arr ℂ → Arr ℂ) (h1e : M2 ℂ) (eri : M4 ℂ) (ci : Arr ℂ) (norb : Nat) (nelec : Nat × Nat) (na nb : Nat) : ℂ :=
  let sigma := c2 (absorb h1e eri norb (nelec.1 + nelec.2) (1 / 2)) ci
  ∑ i ∈ Finset.range na, ∑ j ∈ Finset.range nb, star (ci i j) * sigma i j

end Verif.CplxCi
