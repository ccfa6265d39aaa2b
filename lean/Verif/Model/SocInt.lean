import Mathlib.Data.Complex.Basic
import Mathlib.Algebra.BigOperators.Ring.Finset
/-!
# Model of the spin-orbit coupling integrals

/repo/my_pyscf/mcscf/soc_int.py:10-68. The integrals are inputs: `int1e_prinvxp` for an origin (a nucleus, or the origin of coordinates if none
is set) and `int2e_p1vxp1`; those of the shells of one atom are those of the molecule between these shells. Atomic charges and the ranges of
the orbitals of each atom come from the molecule.
-/
namespace Verif.SocInt

/-- A matrix for each component. -/
abbrev Op := Nat → Nat → Nat → ℝ

/-- An atom: the range of its orbitals and its charge (`aoslice_by_atom`, `atom_charge`). -/
structure Atom where
  p0 : Nat
  p1 : Nat
  charge : ℝ

/-- The molecule: number of orbitals, atoms and integrals. -/
structure Mol where
  nao : Nat
  atoms : List Atom
  prinvxp : Option Nat → Op
  p1vxp1 : Nat → Nat → Nat → Nat → Nat → ℝ

/-- soc_int.py:15: `vj`. -/
noncomputable def vj (n : Nat) (h : Nat → Nat → Nat → Nat → Nat → ℝ) (d : Nat → Nat → ℝ) : Op := fun y i j =>
  ∑ k ∈ Finset.range n, ∑ l ∈ Finset.range n, h y i j k l * d l k

/-- soc_int.py:16-17: `vk`. -/
noncomputable def vk (n : Nat) (h : Nat → Nat → Nat → Nat → Nat → ℝ) (d : Nat → Nat → ℝ) : Op := fun y p q =>
  (∑ j ∈ Finset.range n, ∑ k ∈ Finset.range n, h y p j k q * d j k) + ∑ i ∈ Finset.range n, ∑ l ∈ Finset.range n, h y i q p l * d l i

/-- soc_int.py:32, 33, 48: assignment to the block `[:,p0:p1,p0:p1]`. -/
def setBlock (p0 p1 : Nat) (b v : Op) : Op := fun y p q =>
  if (p0 ≤ p ∧ p < p1) ∧ (p0 ≤ q ∧ q < p1) then b y (p - p0) (q - p0) else v y p q

/-- soc_int.py:30: two-electron integrals of one atom. -/
def atomEri (a : Atom) (h : Nat → Nat → Nat → Nat → Nat → ℝ) : Nat → Nat → Nat → Nat → Nat → ℝ := fun y i j k l =>
  h y (a.p0 + i) (a.p0 + j) (a.p0 + k) (a.p0 + l)

/-- soc_int.py:31: density matrix of one atom. -/
def atomDm (a : Atom) (d : Nat → Nat → ℝ) : Nat → Nat → ℝ := fun i j => d (a.p0 + i) (a.p0 + j)

/-- soc_int.py:21-34 `get_jk_amfi`. -/
noncomputable def jkAmfi (M : Mol) (d : Nat → Nat → ℝ) : Op × Op :=
  M.atoms.foldl (fun s a =>
    (setBlock a.p0 a.p1 (vj (a.p1 - a.p0) (atomEri a M.p1vxp1) (atomDm a d)) s.1,
     setBlock a.p0 a.p1 (vk (a.p1 - a.p0) (atomEri a M.p1vxp1) (atomDm a d)) s.2)) (fun _ _ _ => 0, fun _ _ _ => 0)

/-- soc_int.py:41-48: one-electron part of `compute_hso_amfi`. -/
noncomputable def oneAmfi (M : Mol) : Op :=
  M.atoms.zipIdx.foldl (fun s a =>
    setBlock a.1.p0 a.1.p1 (fun y i j => -M.prinvxp (some a.2) y (a.1.p0 + i) (a.1.p0 + j) * a.1.charge) s) (fun _ _ _ => 0)

/-- soc_int.py:36-54 `compute_hso_amfi`; `alpha2` is the squared fine-structure constant. -/
noncomputable def hsoAmfi (alpha2 : ℝ) (M : Mol) (d : Nat → Nat → ℝ) : Op := fun y p q =>
  alpha2 / 2 * (oneAmfi M y p q + ((jkAmfi M d).1 y p q - (jkAmfi M d).2 y p q * (3 / 2)))

/-- soc_int.py:64-67: integrals without the atomic approximation. -/
noncomputable def hsoFull (alpha2 : ℝ) (M : Mol) (d : Nat → Nat → ℝ) : Op := fun y p q =>
  alpha2 / 2 * (M.prinvxp none y p q + (vj M.nao M.p1vxp1 d y p q - vk M.nao M.p1vxp1 d y p q * (3 / 2)))

/-- soc_int.py:56-68 `compute_hso`. -/
noncomputable def computeHso (alpha2 : ℝ) (M : Mol) (d : Nat → Nat → ℝ) (amfi : Bool) : Nat → Nat → Nat → ℂ := fun y p q =>
  ((if amfi then hsoAmfi alpha2 M d y p q else hsoFull alpha2 M d y p q : ℝ) : ℂ) * Complex.I

end Verif.SocInt
