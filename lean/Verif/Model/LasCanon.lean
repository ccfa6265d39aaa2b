import Verif.Model.DfInts
/-!
# Model of the canonicalization of LASSCF orbitals

/repo/my_pyscf/mcscf/lasci.py:173-201 and 203-347, without point-group symmetry (`orbsym` is `None`).

Arrays are functions of their indices, numbers are real. The diagonalization (`las._eig`), `np.argsort` (whose order of equal elements is not
specified) and the transformation of CI vectors are parameters.
-/
namespace Verif.LasCanon
open Verif.PsEnergy (Mat Ten)

variable {K : Type} [Field K] [LinearOrder K]

/-- What the function reads: `fock` is the Fock matrix over atomic orbitals (242), `natorb` is `natorb_casdm1` (244-245), `h2` is
`h2eff_sub`, flat, and `ci f` the CI vectors of fragment `f`. -/
structure Input (K Ci : Type) where
  nao : Nat
  nmo : Nat
  ncore : Nat
  sub : List Nat
  mo : Mat K
  fock : Mat K
  natorb : Mat K
  h2 : Nat → K
  ci : Nat → Ci

/-- What the function calls. -/
structure Ext (K Ci : Type) where
  eig : Nat → Mat K → (Nat → K) × Mat K
  argsort : Nat → (Nat → K) → Nat → Nat
  rotate : Nat → Ci → Mat K → Ci

/-- `a[o:o+n,o:o+n] = c` -/
def setBlock (a : Mat K) (o n : Nat) (c : Mat K) : Mat K := fun p q =>
  if (o ≤ p ∧ p < o + n) ∧ (o ≤ q ∧ q < o + n) then c (p - o) (q - o) else a p q

/-- lasci.py:173-201 `_eig_inactive_virtual`: `ene` and `umat`. Blocks without orbitals are skipped in the code; here nothing is written. -/
def eigIV {Ci : Type} (X : Ext K Ci) (ncore nocc nmo : Nat) (F : Mat K) : (Nat → K) × Mat K :=
  let a := X.eig ncore fun p q => F p q
  let b := X.eig (nmo - nocc) fun p q => F (nocc + p) (nocc + q)
  (fun p => if nocc ≤ p then b.1 (p - nocc) else if p < ncore then a.1 p else 0,
    setBlock (setBlock (fun p q => if p = q then 1 else 0) 0 ncore a.2) nocc (nmo - nocc) b.2)

/-- lasci.py:250-252: `idx`. -/
def order {Ci : Type} (X : Ext K Ci) (ncore nocc nmo : Nat) (ene : Nat → K) (p : Nat) : Nat :=
  if nocc ≤ p then nocc + X.argsort (nmo - nocc) (fun k => ene (nocc + k)) (p - nocc)
  else if p < ncore then X.argsort ncore ene p else p

/-- lasci.py:257-261: `check_diag`. -/
def checkDiag : List Nat → Nat → Mat K → Mat K
  | [], _, d => d
  | n :: rest, i, d => checkDiag rest (i + n) (setBlock d i n fun _ _ => 0)

/-- lasci.py:262: `is_block_diag`, with `tol` for `1e-8`. -/
def isBlockDiag (tol : K) (sub : List Nat) (d : Mat K) : Bool :=
  (List.range sub.sum).all fun p => (List.range sub.sum).all fun q => decide (|checkDiag sub 0 d p q| < tol)

/-- lasci.py:266-276: the loop over fragments, from position `i` on; `sum (ncas_sub[:isub])` is kept as a running sum. -/
def active {Ci : Type} (X : Ext K Ci) (ncore : Nat) (d : Mat K) : List Nat → Nat → Mat K → Mat K
  | [], _, u => u
  | n :: rest, i, u =>
    let e := X.eig n fun a b => d (i + a) (i + b)
    let idx : Nat → Nat := fun k => X.argsort n e.1 (n - 1 - k)
    active X ncore d rest (i + n) (setBlock u (ncore + i) n fun a b => e.2 a (idx b))

namespace Input
variable {Ci : Type}

def ncas (I : Input K Ci) : Nat := I.sub.sum
def nocc (I : Input K Ci) : Nat := I.ncore + I.ncas

/-- lasci.py:242-243: `fock` over molecular orbitals. -/
def fockMo (I : Input K Ci) : Mat K := fun p q => ∑ ν ∈ Finset.range I.nao, (∑ μ ∈ Finset.range I.nao, I.mo μ p * I.fock μ ν) * I.mo ν q

/-- lasci.py:249-253: `umat` before the active orbitals are treated. -/
def umat0 (I : Input K Ci) (X : Ext K Ci) : Mat K :=
  let e := eigIV X I.ncore I.nocc I.nmo I.fockMo
  fun p q => e.2 p (order X I.ncore I.nocc I.nmo e.1 q)

/-- lasci.py:256-294: `umat`. In the branch 286-294 the active orbitals are one block. -/
def umat (I : Input K Ci) (X : Ext K Ci) (tol : K) : Mat K :=
  if isBlockDiag tol I.sub I.natorb then active X I.ncore I.natorb I.sub 0 (I.umat0 X)
  else active X I.ncore I.natorb [I.ncas] 0 (I.umat0 X)

/-- lasci.py:283-284, 287: the CI vectors which are returned. -/
def ciOut (I : Input K Ci) (X : Ext K Ci) (tol : K) (f : Nat) : Option Ci :=
  if isBlockDiag tol I.sub I.natorb then
    let i := I.ncore + PsEnergy.lo I.sub f
    some (X.rotate f (I.ci f) fun a b => I.umat X tol (i + a) (i + b))
  else none

/-- lasci.py:301: `ucas`. -/
def ucas (I : Input K Ci) (X : Ext K Ci) (tol : K) : Mat K := fun p q => I.umat X tol (I.ncore + p) (I.ncore + q)

/-- lasci.py:299-302: `mo_occ`. -/
def moOcc (I : Input K Ci) (X : Ext K Ci) (tol : K) (p : Nat) : K :=
  if p < I.ncore then 2
  else if p < I.nocc then ∑ u ∈ Finset.range I.ncas, (∑ v ∈ Finset.range I.ncas, I.natorb u v * I.ucas X tol v (p - I.ncore)) *
    I.ucas X tol u (p - I.ncore)
  else 0

/-- lasci.py:303-304: `mo_ene`. -/
def moEne (I : Input K Ci) (X : Ext K Ci) (tol : K) (p : Nat) : K :=
  if I.ncore ≤ p ∧ p < I.nocc then 0
  else ∑ r ∈ Finset.range I.nmo, (∑ t ∈ Finset.range I.nmo, I.fockMo r t * I.umat X tol t p) * I.umat X tol r p

/-- lasci.py:305: `mo_coeff`. -/
def moOut (I : Input K Ci) (X : Ext K Ci) (tol : K) : Mat K := fun μ p => ∑ r ∈ Finset.range I.nmo, I.mo μ r * I.umat X tol r p

/-- lasci.py:316-323: `h2eff_sub`, flat. -/
def h2Out (I : Input K Ci) (X : Ext K Ci) (tol : K) (k : Nat) : K :=
  let npair := I.ncas * (I.ncas + 1) / 2
  let h0 : Ten K := fun p q => LasEnergy.Las.unpackTril fun k => I.h2 ((p * I.ncas + q) * npair + k)
  let h1 : Ten K := fun p q r s => ∑ x ∈ Finset.range I.nmo, I.umat X tol x p * h0 x q r s
  let h2 : Ten K := fun p q r s => ∑ x ∈ Finset.range I.ncas, I.ucas X tol x q * h1 p x r s
  let h3 : Ten K := fun p q r s => ∑ x ∈ Finset.range I.ncas, I.ucas X tol x r * h2 p q x s
  let h4 : Ten K := fun p q r s => ∑ x ∈ Finset.range I.ncas, I.ucas X tol x s * h3 p q r x
  DfInts.packTril (h4 (k / npair / I.ncas) (k / npair % I.ncas)) (k % npair)

end Input
end Verif.LasCanon
