import Verif.Model.HalfOp
import Mathlib.Data.Complex.BigOperators
/-!
# Model of the active space of a k-point calculation
(/repo/my_pyscf/pbc/mcscf/k2R.py, /repo/my_pyscf/pbc/mcscf/casci.py)

* Numbers are exact complex numbers. `reshape` of two axes to one is row-major: the composite index `(R, u)` is `R * nao + u`.
* `nk` k-points, `nao` atomic orbitals, `ncore` core and `ncas` active orbitals for each k-point. External: the phases `phase[R,k]` of
  PySCF's `get_phase`, the overlap matrices `S k`, the core Hamiltonian `h k`, the potential of the core density, the integrals
  `eri_k` of `ao2mo_7d` and the table `kconserv`.
* The check `Nk == NR` of k2R.py:65 is the type of `phase`.
-/
namespace Verif.KptCas
open Verif.HalfOp

/-- The orbitals of all k-points: `C k u p`. -/
abbrev Mos := Nat → M2 ℂ

/-- k2R.py:51-52: `mo[:, ncore:ncore+ncas]`. -/
def act (ncore : Nat) (C : Mos) : Mos := fun k u m => C k u (ncore + m)

/-- k2R.py:79-80 `mo_coeff_R`: `np.dot (phase, (C_k[:,:,:,None] * k_phase[:,None,None,:]).reshape (Nk, -1))` and the transposition, with `k_phase` the
identity of k2R.py:66. -/
noncomputable def moCoeffR (nk nao ncore ncas : Nat) (phase : M2 ℂ) (C : Mos) : M2 ℂ := fun x i =>
  ∑ k ∈ Finset.range nk, phase (x / nao) k * (act ncore C k (x % nao) (i % ncas) * if k = i / ncas then 1 else 0)

/-- k2R.py:89 `s_k_g`. -/
noncomputable def skg (nao : Nat) (phase : M2 ℂ) (S : Mos) : Nat → M2 ℂ := fun k u x => S k u (x % nao) * star (phase (x / nao) k)

/-- k2R.py:91 `mo_phase`. -/
noncomputable def moPhase (nk nao ncore ncas : Nat) (phase : M2 ℂ) (S C : Mos) : Nat → M2 ℂ := fun k m i =>
  ∑ u ∈ Finset.range nao, star (act ncore C k u m) *
    ∑ x ∈ Finset.range (nk * nao), skg nao phase S k u x * moCoeffR nk nao ncore ncas phase C x i

/-- casci.py:74-75: the density of the core orbitals. -/
noncomputable def coreDm (ncore : Nat) (C : Mos) : Mos := fun k i j => 2 * ∑ p ∈ Finset.range ncore, C k i p * star (C k j p)

/-- casci.py:34-90 `h1e_for_cas`: `(h1eff, ecore)`; `veff` is `get_veff`, which gives the potential of a density. -/
noncomputable def h1ForCas (nk nao ncore ncas : Nat) (phase : M2 ℂ) (C h : Mos) (enuc : ℂ) (veff : Mos → Mos) : M2 ℂ × ℂ :=
  let v := veff (coreDm ncore C)
  let ecore := enuc * nk + ∑ k ∈ Finset.range nk, ∑ i ∈ Finset.range nao, ∑ j ∈ Finset.range nao,
    coreDm ncore C k i j * (h k j i + 1 / 2 * v k j i)
  let h1ao : Mos := fun k i j => h k i j + v k i j
  let h1R : M2 ℂ := fun x y => ∑ k ∈ Finset.range nk, phase (x / nao) k * h1ao k (x % nao) (y % nao) * star (phase (y / nao) k)
  let mo := moCoeffR nk nao ncore ncas phase C
  (fun i j => ∑ y ∈ Finset.range (nk * nao), (∑ x ∈ Finset.range (nk * nao), star (mo x i) * h1R x y) * mo y j, ecore)

/-- casci.py:692-735 `get_h2eff`; `eriK a b c` is `eri_k[a,b,c]`. -/
noncomputable def getH2eff (nk nao ncore ncas : Nat) (phase : M2 ℂ) (S C : Mos) (eriK : Nat → Nat → Nat → M4 ℂ) (kcons : Nat → Nat → Nat → Nat) : M4 ℂ :=
  let mp := moPhase nk nao ncore ncas phase S C
  fun R S' T U => (∑ a ∈ Finset.range nk, ∑ b ∈ Finset.range nk, ∑ c ∈ Finset.range nk,
    ∑ u ∈ Finset.range ncas, ∑ v ∈ Finset.range ncas, ∑ w ∈ Finset.range ncas, ∑ t ∈ Finset.range ncas,
      star (mp a u R) * mp b v S' * eriK a b c u v w t * star (mp c w T) * mp (kcons a b c) t U) * (1 / nk)

/-- casci.py:633, 669 `umat`. -/
noncomputable def umat (nk nao ncore ncas : Nat) (phase : M2 ℂ) (S C : Mos) : Mos := fun k i x =>
  ∑ m ∈ Finset.range ncas, act ncore C k i m * moPhase nk nao ncore ncas phase S C k m x

/-- casci.py:634: `reduce (np.dot, (umat, casdm1, umat.conj ().T))`. -/
noncomputable def casPart (nk nao ncore ncas : Nat) (phase : M2 ℂ) (S C : Mos) (casdm1 : M2 ℂ) : Mos := fun k i j =>
  ∑ y ∈ Finset.range (nk * ncas), (∑ x ∈ Finset.range (nk * ncas), umat nk nao ncore ncas phase S C k i x * casdm1 x y) *
    star (umat nk nao ncore ncas phase S C k j y)

/-- casci.py:591-639 `make_rdm1s`, from the density matrices of the active space. -/
noncomputable def makeRdm1s (nk nao ncore ncas : Nat) (phase : M2 ℂ) (S C : Mos) (casdm1a casdm1b : M2 ℂ) : Mos × Mos :=
  let core : Mos := fun k i j => ∑ p ∈ Finset.range ncore, C k i p * star (C k j p)
  (fun k i j => core k i j + casPart nk nao ncore ncas phase S C casdm1a k i j,
   fun k i j => core k i j + casPart nk nao ncore ncas phase S C casdm1b k i j)

/-- casci.py:641-674 `make_rdm1`. -/
noncomputable def makeRdm1 (nk nao ncore ncas : Nat) (phase : M2 ℂ) (S C : Mos) (casdm1 : M2 ℂ) : Mos := fun k i j =>
  (∑ p ∈ Finset.range ncore, C k i p * star (C k j p)) * 2 + casPart nk nao ncore ncas phase S C casdm1 k i j

/-- casci.py:133-147: the density whose potential enters `get_fock`. -/
noncomputable def fockDm (nk nao ncore ncas : Nat) (phase : M2 ℂ) (S C : Mos) (casdm1 : M2 ℂ) : Mos := fun k i j =>
  coreDm ncore C k i j + ∑ y ∈ Finset.range (nk * ncas), (∑ x ∈ Finset.range (nk * ncas),
    (∑ m ∈ Finset.range ncas, act ncore C k i m * moPhase nk nao ncore ncas phase S C k m x) * casdm1 x y) *
    ∑ m ∈ Finset.range ncas, star (moPhase nk nao ncore ncas phase S C k m y) * star (act ncore C k j m)

end Verif.KptCas
