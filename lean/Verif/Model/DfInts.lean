import Verif.Model.LasEnergy
import Mathlib.Algebra.Order.Field.Basic
import Mathlib.Data.Nat.Find
/-!
# Model of the density-fitted integrals and potentials

/repo/my_pyscf/df/sparse_df.py:8-99, /repo/lib/sparsedf.c:287-360, /repo/my_pyscf/mcscf/las_ao2mo.py:6-70 and
/repo/my_pyscf/mcscf/lasscf_sync_o0.py:1761-1814.

Arrays are functions of their indices; arrays which the C code gets are flat, in row-major order. Orbitals are real. BLAS routines
are modelled by what they are specified to do; a product over no indices changes nothing.
-/
namespace Verif.DfInts
open Verif.PsEnergy (Mat Ten)

/-- sparse_df.py:18-21: the loop, `fuel` passes left. -/
def inferLoop (ncol : Nat) : Nat → Nat → Nat → Nat
  | 0, _, nmo1 => nmo1
  | fuel + 1, off, nmo1 => if off + nmo1 = ncol then nmo1 else inferLoop ncol fuel (off + nmo1) (nmo1 + 1)
/-- sparse_df.py:15-22: the number of orbitals found from the number of columns of a packed array. -/
def inferNmo (ncol : Nat) : Nat := inferLoop ncol (ncol - 1) 0 1

/-- Arithmetic of C `unsigned int`. -/
def u32 (x : Nat) : Nat := x % 2 ^ 32

variable {K : Type} [Field K] [LinearOrder K]

/-- `lib.unpack_tril` reads this column of the packed array for the element `i, j`. -/
def pair (i j : Nat) : Nat := if j ≤ i then i * (i + 1) / 2 + j else j * (j + 1) / 2 + i

/-- sparse_df.py:59-61: `metric`; the norm of the column is compared with `thresh ≥ 0`. -/
def metric (thresh : K) (naux : Nat) (b : Nat → Nat → K) (i j : Nat) : Bool :=
  decide (thresh * thresh < ∑ P ∈ Finset.range naux, b P (pair i j) * b P (pair i j))

/-- sparse_df.py:66: `np.where (metric[irow])[0]`. -/
def ents (thresh : K) (nao naux : Nat) (b : Nat → Nat → K) (i : Nat) : List Nat :=
  (List.range nao).filter (metric thresh naux b i)

/-- sparse_df.py:63: `nent_max`. -/
def nentMax (thresh : K) (nao naux : Nat) (b : Nat → Nat → K) : Nat :=
  (List.range nao).foldl (fun m i => max m (ents thresh nao naux b i).length) 0

/-- sparse_df.py:64-66: `iao_entlist`, flat; the filler -1 is not read. -/
def entlist (thresh : K) (nao naux : Nat) (b : Nat → Nat → K) (k : Nat) : Nat :=
  (ents thresh nao naux b (k / nentMax thresh nao naux b)).getD (k % nentMax thresh nao naux b) 0

/-- BLAS `dcopy (n, x, incx, y, incy)` for `incy > 0`. -/
def dcopy (n : Nat) (x : Nat → K) (ox incx : Nat) (y : Nat → K) (oy incy : Nat) : Nat → K := fun a =>
  if oy ≤ a ∧ (a - oy) % incy = 0 ∧ (a - oy) / incy < n then x (ox + (a - oy) / incy * incx) else y a

/-- BLAS `dgemm ('T', 'N', m, n, k, 1.0, A, k, B, k, 1.0, C, m)`. -/
def dgemmTN (m n k : Nat) (A : Nat → K) (oa : Nat) (B : Nat → K) (ob : Nat) (C : Nat → K) (oc : Nat) : Nat → K := fun a =>
  if oc ≤ a ∧ a - oc < m * n then
    C a + ∑ x ∈ Finset.range k, A (oa + (x + (a - oc) % m * k)) * B (ob + (x + (a - oc) / m * k))
  else C a

/-- sparsedf.c:341-351: one pass of the loop over `jao_ix`; the work array is returned. -/
def copyStep (naux nmo npair nentm : Nat) (cderi A : Nat → K) (entl : Nat → Nat) (iao myNent w : Nat) (wrk : Nat → K)
    (x : Nat) : Nat → K :=
  let jao := entl (u32 (iao * nentm) + x)
  let col := if jao < iao then u32 (u32 (iao * (iao + 1)) / 2 + jao) else u32 (u32 (jao * (jao + 1)) / 2 + iao)
  let wrk := dcopy naux cderi col npair wrk (w + x) myNent
  dcopy nmo A (u32 (jao * nmo)) 1 wrk (w + nentm * naux + x) myNent

/-- sparsedf.c:336-357: one pass of the loop over `iao_ix`, by thread `t`; `(wrk, dense_prod)` is the memory. -/
def rowStep (nao naux nmo nentm : Nat) (cderi A : Nat → K) (sort : List Nat) (nent : Nat → Nat) (entl : Nat → Nat)
    (m : (Nat → K) × (Nat → K)) (it : Nat × Nat) : (Nat → K) × (Nat → K) :=
  let iao := sort.getD it.2 0
  let w := u32 (it.1 * nentm * (naux + nmo))
  let npair := nao * (nao + 1) / 2
  let wrk := (List.range (nent iao)).foldl (copyStep naux nmo npair nentm cderi A entl iao (nent iao) w) m.1
  (wrk, dgemmTN naux nmo (nent iao) wrk w wrk (w + nentm * naux) m.2 (u32 (iao * nmo * naux)))

/-- sparsedf.c:287-360 `SINT_SDCDERI_DDMAT`. `sched` lists the passes of the parallel loop as pairs of thread and `iao_ix`, in the
order in which they are executed (threads write to different parts of the memory, so that passes are taken to be atomic). -/
def ddmat (nao naux nmo nentm : Nat) (cderi A : Nat → K) (sort : List Nat) (nent entl : Nat → Nat) (sched : List (Nat × Nat))
    (wrk prod : Nat → K) : Nat → K :=
  (sched.foldl (rowStep nao naux nmo nentm cderi A sort nent entl) (wrk, prod)).2

/-- sparse_df.py:72-99 `contract1` of a packed array `b` (row-major if `cContig`): `vPuv[i,u,P]`. `naux_slow` (56) calls a function
which does not exist: `none` is the `AttributeError`. `sort` is `iao_sort`. -/
def contract1 (thresh : K) (cContig : Bool) (nao naux nmo : Nat) (b : Nat → Nat → K) (cmat : Mat K) (sort : List Nat)
    (sched : List (Nat × Nat)) : Option (Nat → Nat → Nat → K) :=
  if cContig then
    let npair := nao * (nao + 1) / 2
    let prod := ddmat nao naux nmo (nentMax thresh nao naux b) (fun k => b (k / npair) (k % npair))
      (fun k => cmat (k / nmo) (k % nmo)) sort (fun i => (ents thresh nao naux b i).length) (entlist thresh nao naux b) sched
      (fun _ => 0) (fun _ => 0)
    some fun i u P => prod ((i * nmo + u) * naux + P)
  else none

/-- The row of the packed lower triangle in which position `k` lies. -/
def rowOf (k : Nat) : Nat := Nat.findGreatest (fun v => v * (v + 1) / 2 ≤ k) k
/-- `lib.pack_tril` of one matrix. -/
def packTril (m : Mat K) (k : Nat) : K := m (rowOf k) (k - rowOf k * (rowOf k + 1) / 2)

/-- What `with_df.loop` yields, with what is not determined in the call of `contract1`: the number of rows, the rows (packed), the
order of the orbitals and the schedule. -/
structure Block (K : Type) where
  naux : Nat
  b : Nat → Nat → K
  sort : List Nat
  sched : List (Nat × Nat)

/-- las_ao2mo.py:55-58: what one block adds to `eri`, flat. -/
def blockEri (L : LasEnergy.Las K) (naux : Nat) (bmuP : Nat → Nat → Nat → K) (k : Nat) : K :=
  let buvP : Nat → Nat → Nat → K := fun v w P => ∑ μ ∈ Finset.range L.nao, L.mo μ (L.ncore + v) * bmuP μ w P
  let eri1 : Ten K := fun μ u v w => ∑ P ∈ Finset.range naux, bmuP μ u P * buvP v w P
  let eri2 : Ten K := fun p u v w => ∑ μ ∈ Finset.range L.nao, L.mo μ p * eri1 μ u v w
  packTril (eri2 (k / L.npair / L.ncas) (k / L.npair % L.ncas)) (k % L.npair)

/-- `np.concatenate` along the last axis. -/
def concat : List (Nat × (Nat → K)) → Nat → K
  | [], _ => 0
  | (n, f) :: rest, P => if P < n then f P else concat rest (P - n)

/-- las_ao2mo.py:45-62 `get_h2eff_df` with the cache: the array `eri`, flat, and its attribute `bmPu[m,P,u]`. -/
def h2effDf (thresh : K) (L : LasEnergy.Las K) (blocks : List (Block K)) : Option ((Nat → K) × (Nat → Nat → Nat → K)) := do
  let bmuP ← blocks.mapM fun B =>
    (contract1 thresh true L.nao B.naux L.ncas B.b (fun μ u => L.mo μ (L.ncore + u)) B.sort B.sched).map fun f => (B.naux, f)
  return (bmuP.foldl (fun eri x => fun k => eri k + blockEri L x.1 x.2 k) (fun _ => 0),
    fun m P u => concat (bmuP.map fun x => (x.1, x.2 m u)) P)

/-- lasscf_sync_o0.py:1802-1814 `fast_veffa`, for the cached arrays: `casdm1s` is the block-diagonal density (1788-1790), `b` is
`with_df._cderi`. -/
def fastVeffa (L : LasEnergy.Las K) (naux : Nat) (b : Nat → Nat → K) (bmPu : Nat → Nat → Nat → K) (casdm1s : Bool → Mat K)
    (σ : Bool) : Mat K :=
  let dm1 : Mat K := fun μ ν => ∑ p ∈ Finset.range L.ncas, L.mo μ (L.ncore + p) *
    ∑ q ∈ Finset.range L.ncas, (casdm1s false p q + casdm1s true p q) * L.mo ν (L.ncore + q)
  let dmTril : Mat K := fun μ ν => dm1 μ ν + dm1 ν μ - if μ = ν then dm1 μ μ else 0
  let rho : Nat → K := fun P => ∑ k ∈ Finset.range (L.nao * (L.nao + 1) / 2), b P k * packTril dmTril k
  let vj : Mat K := fun μ ν => LasEnergy.Las.unpackTril (fun k => ∑ P ∈ Finset.range naux, rho P * b P k) μ ν
  let vmPsu : Nat → Nat → Bool → Nat → K := fun m P s v => ∑ u ∈ Finset.range L.ncas, bmPu m P u * casdm1s s u v
  let vk : Mat K := fun m n => ∑ P ∈ Finset.range naux, ∑ v ∈ Finset.range L.ncas, vmPsu m P σ v * bmPu n P v
  fun μ ν => vj μ ν - vk μ ν

end Verif.DfInts
