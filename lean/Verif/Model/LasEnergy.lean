import Verif.Model.PsEnergy
import Verif.Model.ProdRdm
/-!
# Model of the density matrices, effective Hamiltonians and energies of LAS states

/repo/my_pyscf/mcscf/lasci.py:57-141, 926-932, 999-1047, 1166-1347, 1974-2114 and /repo/my_pyscf/mcscf/las_ao2mo.py:216-227.

Arrays are functions of their indices, of which only those below the dimensions are used. Numbers are elements of a field;
orbitals and CI vectors are real, so that `conj` does nothing. Spin is `Bool` (`false` = α). The density matrices of the
fragments (`fcibox.states_make_rdm1s`, `states_make_casdm2_sub`), the integrals and the Coulomb and exchange matrices of PySCF
(`get_hcore`, `get_jk`, `ao2mo`) are inputs. All keyword arguments have their default values except where a definition has an
argument for them.
-/
namespace Verif.LasEnergy
open Verif.PsEnergy (Mat Ten)
open Verif.ProdRdm (Arr arr4 Frags)

variable {K : Type} [Field K]

/-- The data of a LASCI object which the methods below read. `h2` is `h2eff_sub` as a flat array in row-major order (so that
`reshape` does nothing); `dm1 f r σ` and `dm2 f r` are `casdm1frs[f][r,σ]` and `casdm2fr[f][r]`; `w` is `las.weights` and `bw f`
is `las.fciboxes[f].weights`; `g` holds the integrals `(μν|λκ)` over atomic orbitals. -/
structure Las (K : Type) where
  nao : Nat
  nmo : Nat
  ncore : Nat
  nroots : Nat
  sub : List Nat
  w : Nat → K
  bw : Nat → Nat → K
  hcore : Mat K
  g : Ten K
  mo : Mat K
  h2 : Nat → K
  dm1 : Nat → Nat → Bool → Mat K
  dm2 : Nat → Nat → Ten K

namespace Las

/-- `las.ncas` -/
def ncas (L : Las K) : Nat := L.sub.sum
/-- lasci.py:115, 2040: `ncas*(ncas+1)//2` -/
def npair (L : Las K) : Nat := L.ncas * (L.ncas + 1) / 2

/-- `scipy.linalg.block_diag` of one matrix per fragment. -/
def blockDiag (sub : List Nat) (m : Nat → Mat K) : Mat K :=
  (List.range sub.length).foldl (fun (dm : Mat K) f => fun p q =>
    if PsEnergy.ins sub f p && PsEnergy.ins sub f q then m f (p - PsEnergy.lo sub f) (q - PsEnergy.lo sub f) else dm p q)
    (fun _ _ => 0)

/-- lasci.py:999-1020 `make_casdm1s_sub`. -/
def casdm1sSub (L : Las K) (f : Nat) (σ : Bool) : Mat K := fun p q => ∑ r ∈ Finset.range L.nroots, L.dm1 f r σ p q * L.w r

/-- lasci.py:1022-1047 `states_make_casdm1s` and 1390-1418 `state_make_casdm1s`, element `[r][σ]`; the same lines are 122-123. -/
def stateCasdm1s (L : Las K) (r : Nat) (σ : Bool) : Mat K := blockDiag L.sub fun f => L.dm1 f r σ

/-- lasci.py:1308-1328 `make_casdm1s`; the same lines are 119-120. -/
def casdm1s (L : Las K) (σ : Bool) : Mat K := blockDiag L.sub fun f => L.casdm1sSub f σ

/-- lasci.py:1287-1289: `mo @ moH` of the core orbitals. -/
def dmCore (L : Las K) : Mat K := fun μ ν => ∑ i ∈ Finset.range L.ncore, L.mo μ i * L.mo ν i

/-- lasci.py:1166-1200 `states_make_rdm1s`, element `[r,σ]`. -/
def stateRdm1s (L : Las K) (r : Nat) (σ : Bool) : Mat K := fun μ ν =>
  (∑ p ∈ Finset.range L.ncas, L.mo μ (L.ncore + p) *
    ∑ q ∈ Finset.range L.ncas, L.stateCasdm1s r σ p q * L.mo ν (L.ncore + q)) + L.dmCore μ ν

/-- lasci.py:926-932 `get_mo_slice`. -/
def moSlice (L : Las K) (idx : Nat) : Mat K :=
  (L.sub.take idx).foldl (fun m offs => fun μ a => m μ (offs + a)) (fun μ a => L.mo μ (L.ncore + a))

/-- lasci.py:1202-1244 `make_rdm1s_sub`. -/
def rdm1sSub (L : Las K) (includeCore : Bool) : List (Bool → Mat K) :=
  let rdm1s := (List.range L.sub.length).map fun f => fun σ μ ν =>
    ∑ a ∈ Finset.range (L.sub.getD f 0), L.moSlice f μ a *
      ∑ b ∈ Finset.range (L.sub.getD f 0), L.casdm1sSub f σ a b * L.moSlice f ν b
  if includeCore && decide (L.ncore ≠ 0) then (fun _ => L.dmCore) :: rdm1s else rdm1s

/-- lasci.py:1272-1291 `make_rdm1s`; `includeCore` is passed on to `make_rdm1s_sub` if it is among the keyword arguments. -/
def rdm1s (L : Las K) (includeCore : Bool := false) (σ : Bool) : Mat K := fun μ ν =>
  L.dmCore μ ν + ((L.rdm1sSub includeCore).map fun d => d σ μ ν).sum

/-- lasci.py:1293-1306 `make_rdm1`. -/
def rdm1 (L : Las K) (includeCore : Bool := false) : Mat K := fun μ ν =>
  L.rdm1s includeCore false μ ν + L.rdm1s includeCore true μ ν

/-- `scf.get_jk` of PySCF: the Coulomb matrix. -/
def getJ (L : Las K) (dm : Mat K) : Mat K := fun μ ν =>
  ∑ l ∈ Finset.range L.nao, ∑ k ∈ Finset.range L.nao, L.g μ ν l k * dm l k
/-- `scf.get_jk` of PySCF: the exchange matrix. -/
def getK (L : Las K) (dm : Mat K) : Mat K := fun μ ν =>
  ∑ l ∈ Finset.range L.nao, ∑ k ∈ Finset.range L.nao, L.g μ l k ν * dm l k

/-- lasci.py:2007-2009 `get_veff`, two density matrices. -/
def veffSpin (L : Las K) (dm : Bool → Mat K) (σ : Bool) : Mat K := fun μ ν =>
  (L.getJ (dm false) μ ν + L.getJ (dm true) μ ν) - L.getK (dm σ) μ ν
/-- lasci.py:2010-2012 `get_veff`, one density matrix (the loop is over the rows of both matrices). -/
def veffSum (L : Las K) (dm : Mat K) : Mat K := fun μ ν => L.getJ dm μ ν - L.getK dm μ ν / 2
/-- lasci.py:2001 `get_veff` without a density matrix. -/
def veffDefault (L : Las K) : Mat K := L.veffSum (L.rdm1 true)

/-- `lib.numpy_helper.unpack_tril` of one row. -/
def unpackTril (row : Nat → K) : Mat K := fun v w => if w ≤ v then row (v * (v + 1) / 2 + w) else row (w * (w + 1) / 2 + v)

/-- lasci.py:114-115, 2040-2042 and 2107-2108: `eri_cas`. -/
def eriCas (L : Las K) : Ten K := fun p q => unpackTril fun k => L.h2 (((L.ncore + p) * L.ncas + q) * L.npair + k)

/-- las_ao2mo.py:216-227 `get_h2eff_slice` (`compact=None`): rows of the lower triangle are picked (223-224) and
`ao2mo.restore (1, …)` of PySCF puts them back on both sides of the diagonal. -/
def h2effSlice (L : Las K) (idx : Nat) : Ten K := fun p q =>
  let i := (L.sub.take idx).sum
  let x := max (i + p) (i + q) * L.ncas + min (i + p) (i + q)
  fun r s => unpackTril (fun k => L.h2 ((L.ncore * L.ncas + x) * L.npair + k)) (i + r) (i + s)

/-- `mo_cas.conj ().T @ A @ mo_cas` -/
def toCas (L : Las K) (A : Mat K) : Mat K := fun p q => ∑ ν ∈ Finset.range L.nao,
  (∑ μ ∈ Finset.range L.nao, L.mo μ (L.ncore + p) * A μ ν) * L.mo ν (L.ncore + q)

/-- lasci.py:103-104, 111: `h1e` before the first pass. -/
def h1eAvg (L : Las K) (σ : Bool) : Mat K := L.toCas fun μ ν => L.hcore μ ν + L.veffSpin (L.rdm1s) σ μ ν

/-- lasci.py:121-127: `h1e_r[r,σ]`. -/
def h1er (L : Las K) (r : Nat) (σ : Bool) : Mat K := fun p q =>
  let dm1s : Bool → Mat K := fun σ a b => L.stateCasdm1s r σ a b - L.casdm1s σ a b
  let j : Bool → K := fun σ => ∑ a ∈ Finset.range L.ncas, ∑ b ∈ Finset.range L.ncas, dm1s σ a b * L.eriCas p q a b
  let k : K := ∑ a ∈ Finset.range L.ncas, ∑ b ∈ Finset.range L.ncas, dm1s σ a b * L.eriCas p b a q
  L.h1eAvg σ p q + j σ + j (!σ) - k

/-- lasci.py:57-141 `h1e_for_las`, element `[f][r,σ]`. -/
def h1eFor (L : Las K) (f r : Nat) (σ : Bool) : Mat K := fun x y =>
  let p := (L.sub.take f).sum
  let h2e : Ten K := fun a b c d => L.eriCas (p + a) (p + b) (p + c) (p + d)
  let n := L.sub.getD f 0
  let j : Bool → K := fun σ => ∑ a ∈ Finset.range n, ∑ b ∈ Finset.range n, L.dm1 f r σ a b * h2e x y a b
  let k : K := ∑ a ∈ Finset.range n, ∑ b ∈ Finset.range n, L.dm1 f r σ a b * h2e x b a y
  L.h1er r σ (p + x) (p + y) - j σ - j (!σ) + k

/-- lasci.py:2034-2036: `veff_core`. -/
def veffCore (L : Las K) : Mat K := L.veffSum fun μ ν => 2 * L.dmCore μ ν

/-- lasci.py:2038: `e0`. -/
def e0 (L : Las K) : K :=
  2 * ∑ μ ∈ Finset.range L.nao, ∑ i ∈ Finset.range L.ncore,
    (∑ ν ∈ Finset.range L.nao, ((L.hcore μ ν + L.veffCore μ ν) - L.veffCore μ ν / 2) * L.mo ν i) * L.mo μ i

/-- lasci.py:2037, 2039: `h1eff`. -/
def h1eff (L : Las K) : Mat K := L.toCas fun μ ν => L.hcore μ ν + L.veffCore μ ν

/-- lasci.py:2061-2065 and 2103-2105: the cumulant of a two-body density matrix. -/
def cumulant (d : Bool → Mat K) (D : Ten K) : Ten K := fun p q r s =>
  D p q r s - (d false p q + d true p q) * (d false r s + d true r s) + d false p s * d false r q + d true p s * d true r q

/-- lasci.py:2016-2073 `states_energy_elec`, element `[r]`. -/
def stateEnergy (L : Las K) (r : Nat) : K :=
  let vj : Mat K := fun a b => ∑ p ∈ Finset.range L.ncas, ∑ q ∈ Finset.range L.ncas,
    (L.stateCasdm1s r false p q + L.stateCasdm1s r true p q) * L.eriCas p q a b
  let vk : Bool → Mat K := fun σ p q => ∑ a ∈ Finset.range L.ncas, ∑ b ∈ Finset.range L.ncas,
    L.stateCasdm1s r σ a b * L.eriCas p b a q
  let e1 : K := ∑ σ : Bool, ∑ p ∈ Finset.range L.ncas, ∑ q ∈ Finset.range L.ncas,
    (L.h1eff p q + (vj p q - vk σ p q) / 2) * L.stateCasdm1s r σ p q
  let e2 : K := ∑ f ∈ Finset.range L.sub.length,
    (∑ p ∈ Finset.range (L.sub.getD f 0), ∑ q ∈ Finset.range (L.sub.getD f 0),
      ∑ u ∈ Finset.range (L.sub.getD f 0), ∑ v ∈ Finset.range (L.sub.getD f 0),
        L.h2effSlice f p q u v * cumulant (L.dm1 f r) (L.dm2 f r) p q u v) / 2
  L.e0 + e1 + e2

/-- What `make_casdm2` and `state_make_casdm2` read (they are modelled in `Verif.ProdRdm`). -/
def frags (L : Las K) : Frags K := ⟨L.sub, L.nroots, L.w, L.dm1⟩

/-- lasci.py:1420-1478 `state_make_casdm2`. -/
def stateCasdm2 (L : Las K) (r : Nat) : Ten K := fun p q u v =>
  L.frags.stateMakeCasdm2 (fun f r => arr4 (L.dm2 f r)) r [p, q, u, v]

/-- lasci.py:1074-1096 `make_casdm2_sub` and 1529-1599 `make_casdm2`. -/
def casdm2 (L : Las K) : Ten K := fun p q u v =>
  L.frags.makeCasdm2 (fun f => arr4 fun a b c d => ∑ r ∈ Finset.range L.nroots, L.dm2 f r a b c d * L.bw f r) [p, q, u, v]

/-- lasci.py:2075-2114 `energy_elec`. -/
def energyElec (L : Las K) : K :=
  let e1 : K := ∑ σ : Bool, ∑ μ ∈ Finset.range L.nao, ∑ ν ∈ Finset.range L.nao,
    (L.hcore μ ν + L.veffSpin (L.rdm1s) σ μ ν / 2) * L.rdm1s false σ μ ν
  let e2 : K := (∑ p ∈ Finset.range L.ncas, ∑ q ∈ Finset.range L.ncas, ∑ u ∈ Finset.range L.ncas, ∑ v ∈ Finset.range L.ncas,
    L.eriCas p q u v * cumulant L.casdm1s L.casdm2 p q u v) / 2
  e1 + e2

end Las
end Verif.LasEnergy
