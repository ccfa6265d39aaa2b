import Verif.Model.KptCas
/-!
# Model of the canonicalization of the orbitals of a k-point calculation
(/repo/my_pyscf/pbc/mcscf/casci.py)

* Arrays live in a heap, so that an assignment through one reference is seen through all others. `mo_coeff` refers to one array of two indices for
  each k-point: either a list of arrays, as the mean-field object of PySCF keeps it, or one array of three indices, whose slices are views.
* External: `fock_ao`, the result of `get_fock`; `mc._eig`, given by `eig`; `np.argsort (w.round (9))`, given by `argsort`.
* Not modelled: `orbsym`, which is zero and not returned, and `cas_natorb = True`, which is not implemented.
-/
namespace Verif.KptCanon
open Verif.HalfOp Verif.KptCas

/-- The contents of the arrays. -/
abbrev Heap := Nat → M2 ℂ

/-- `mo_coeff`: the address of the array of each k-point, and whether they are slices of one `ndarray`. -/
structure Ref where
  addr : Nat → Nat
  isArray : Bool

/-- What a reader of `mo_coeff` sees. -/
def Ref.read (r : Ref) (H : Heap) : Mos := fun k => H (r.addr k)

/-- casci.py:212 `mo_coeff.copy ()`: an `ndarray` is copied to new memory, here `next, next + 1, …`; a list is copied, the arrays in it are not. -/
def copy (nk next : Nat) (r : Ref) (H : Heap) : Ref × Heap :=
  if r.isArray then (⟨fun k => next + k, true⟩, fun a => if next ≤ a ∧ a < next + nk then H (r.addr (a - next)) else H a) else (r, H)

/-- casci.py:219-220: the diagonal of the Fock matrix. -/
noncomputable def diagFock (nao : Nat) (C F : Mos) : Nat → Nat → ℂ := fun k p =>
  ∑ i ∈ Finset.range nao, star (C k i p) * ∑ j ∈ Finset.range nao, F k i j * C k j p

/-- casci.py:236-237: the block of the Fock matrix for the orbitals `idx`. -/
noncomputable def subFock (nao : Nat) (F C : M2 ℂ) (idx : List Nat) : M2 ℂ := fun a b =>
  ∑ j ∈ Finset.range nao, (∑ i ∈ Finset.range nao, star (C i (idx.getD a 0)) * F i j) * C j (idx.getD b 0)

/-- casci.py:238-244: eigenvalues and eigenvectors, in the order of `argsort` when `sort`. -/
def solve (sort : Bool) (eig : Nat → M2 ℂ → (Nat → ℂ) × M2 ℂ) (argsort : Nat → (Nat → ℂ) → Nat → Nat) (n : Nat) (f : M2 ℂ) : (Nat → ℂ) × M2 ℂ :=
  let e := eig n f
  if sort then (fun a => e.1 (argsort n e.1 a), fun b a => e.2 b (argsort n e.1 a)) else e

/-- casci.py:246: `mo_coeff1[k][:,idx] = mo_coeff1[k][:,idx].dot (c)`. -/
noncomputable def rotate (idx : List Nat) (u C : M2 ℂ) : M2 ℂ := fun i p =>
  if p ∈ idx then ∑ b ∈ Finset.range idx.length, C i (idx.getD b 0) * u b (idx.idxOf p) else C i p

/-- casci.py:247: `mo_energy[k][idx] = w`. -/
def putEnergy (idx : List Nat) (w E : Nat → ℂ) : Nat → ℂ := fun p => if p ∈ idx then w (idx.idxOf p) else E p

/-- casci.py:232-247 `_diag_subfock_`: the loop over k-points. -/
noncomputable def diagSub (nk nao : Nat) (sort : Bool) (eig : Nat → M2 ℂ → (Nat → ℂ) × M2 ℂ) (argsort : Nat → (Nat → ℂ) → Nat → Nat) (F : Mos)
    (r : Ref) (idx : List Nat) (st : Heap × (Nat → Nat → ℂ)) : Heap × (Nat → Nat → ℂ) :=
  if 1 < idx.length then
    (List.range nk).foldl (fun st k =>
      let C := st.1 (r.addr k)
      let e := solve sort eig argsort idx.length (subFock nao (F k) C idx)
      (Function.update st.1 (r.addr k) (rotate idx e.2 C), Function.update st.2 k (putEnergy idx e.1 (st.2 k)))) st
  else st

/-- casci.py:249-260: the orbitals that are not frozen; `frozen` is a list of orbitals, the first `n` for a number `n`. -/
def freeIdx (frozen : List Nat) (lo hi : Nat) : List Nat := (List.range' lo (hi - lo)).filter fun p => !decide (p ∈ frozen)

/-- casci.py:162-273 `canonicalize`: the new orbitals, the heap afterwards and the energies. -/
noncomputable def canonicalize (nk nao nmo ncore ncas next : Nat) (sort : Bool) (eig : Nat → M2 ℂ → (Nat → ℂ) × M2 ℂ)
    (argsort : Nat → (Nat → ℂ) → Nat → Nat) (F : Mos) (frozen : List Nat) (mo : Ref) (H : Heap) : Ref × Heap × (Nat → Nat → ℂ) :=
  let c := copy nk next mo H
  let E := diagFock nao (c.1.read c.2) F
  let s1 := diagSub nk nao sort eig argsort F c.1 (freeIdx frozen 0 ncore) (c.2, E)
  let s2 := diagSub nk nao sort eig argsort F c.1 (freeIdx frozen (ncore + ncas) nmo) s1
  (c.1, s2.1, s2.2)

end Verif.KptCanon
