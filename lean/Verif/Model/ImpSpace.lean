import Mathlib.Algebra.Order.Field.Basic
import Mathlib.Algebra.BigOperators.Group.Finset.Basic
import Mathlib.Algebra.BigOperators.Group.List.Basic
/-!
# Model of the construction of impurity orbital spaces

/repo/my_pyscf/mcscf/lasscf_async/split.py:109-150 and 161-371, orbitals only (the electrons are counted, 373-387, and the Fock matrix is
updated, 232-260, without effect on how orbitals are divided, except that the last gradient is an input here). Orbitals are real and given in
the orthonormal utility basis of `n` elements. Results of singular value decompositions are inputs.
-/
namespace Verif.ImpSpace

variable {K : Type} [Field K] [LinearOrder K]

abbrev Orb (K : Type) := Nat → K

/-- Result of `svd (a, full_matrices=True)`. -/
structure Svd (K : Type) where
  u : Nat → Nat → K
  s : Nat → K
  vh : Nat → Nat → K

/-- Element of `v.conj ().T @ w`. -/
def dot (n : Nat) (v w : Orb K) : K := ∑ i ∈ Finset.range n, v i * w i

/-- Column `j`. -/
def col (l : List (Orb K)) (j : Nat) : Orb K := l.getD j fun _ => 0

/-- Column `k` of `eo @ u`. -/
def rot (eo : List (Orb K)) (u : Nat → Nat → K) (k : Nat) : Orb K := fun i => ∑ j ∈ Finset.range eo.length, col eo j i * u j k

/-- `np.append (fo, eo @ u[:,idx])` and `eo @ u[:,~idx]`. -/
def divide (fo eo : List (Orb K)) (u : Nat → Nat → K) (idx : Nat → Bool) : List (Orb K) × List (Orb K) :=
  (fo ++ ((List.range eo.length).filter idx).map (rot eo u), ((List.range eo.length).filter fun k => !idx k).map (rot eo u))

/-- split.py:185-187: the inactive and external orbitals. -/
def unactive (ncore nocc : Nat) (mo : List (Orb K)) : List (Orb K) := mo.take ncore ++ mo.drop nocc

/-- split.py:161-198 `_get_orthnorm_frag`; `nfu` is the number of columns of `frag_umat`. -/
def orthnormFrag (tol : K) (ncore nocc las0 nlas nfu : Nat) (mo : List (Orb K)) (X : Svd K) : List (Orb K) × List (Orb K) :=
  let fo := (mo.drop las0).take nlas
  let uo := unactive ncore nocc mo
  if uo.length = 0 then (fo, uo) else divide fo uo X.u fun k => decide (k < min uo.length nfu ∧ tol ≤ |X.s k|)

/-- split.py:200-229 `_a2i_gradorbs`. -/
def a2i (doGrad : Bool) (nlas : Nat) (fo eo : List (Orb K)) (X : Svd K) : List (Orb K) × List (Orb K) :=
  if eo.length = 0 ∨ nlas = 0 ∨ doGrad = false then (fo, eo) else divide fo eo X.u fun k => decide (k < min nlas eo.length)

/-- split.py:283: an element of `eo.conj ().T @ dm_core @ fo` for single orbitals. -/
def dmCore (n : Nat) (core : List (Orb K)) (v w : Orb K) : K := (core.map fun c => dot n v c * dot n c w).sum

/-- split.py:283: `s1`. -/
def schmidtMat (n : Nat) (core : List (Orb K)) (nlas : Nat) (fo eo : List (Orb K)) (j b : Nat) : K :=
  dmCore n core (col eo j) (col (fo.drop nlas) b)

/-- split.py:262-293 `_schmidt`. -/
def schmidt (thresh : K) (nlas : Nat) (fo eo : List (Orb K)) (X : Svd K) : List (Orb K) × List (Orb K) :=
  if eo.length = 0 ∨ (fo.drop nlas).length = 0 then (fo, eo)
  else divide fo eo X.u fun k => decide (k < min eo.length (fo.drop nlas).length ∧ thresh < |X.s k|)

/-- Column `k` of `eo @ u`, all of them. -/
def rotAll (eo : List (Orb K)) (u : Nat → Nat → K) : List (Orb K) := (List.range eo.length).map (rot eo u)

/-- split.py:353, 357: an element of `eio.conj ().T @ (fock1-fock1.T) @ fo` for single orbitals; `g` is `fock1-fock1.T`. -/
def grad (n : Nat) (g : Nat → Nat → K) (v w : Orb K) : K := ∑ i ∈ Finset.range n, ∑ j ∈ Finset.range n, v i * g i j * w j

/-- split.py:360-362: the singular values of the two decompositions, one after the other. -/
def bothSvals (ni nf : Nat) (Xi Xx : Svd K) (k : Nat) : K := if k < min ni nf then Xi.s k else Xx.s (k - min ni nf)

/-- split.py:314-371 `_ia2x_gradorbs`; `ni` is the number of inactive orbitals (340), `argsort` is numpy's. `none` if the assertion fails. -/
def ia2x (argsort : Nat → (Nat → K) → Nat → Nat) (ncore ni ntarget : Nat) (fo eo : List (Orb K)) (X Xi Xx : Svd K) :
    Option (List (Orb K) × List (Orb K)) :=
  if eo.length = 0 ∨ ncore = 0 then some (fo, eo)
  else
    let e1 := rotAll eo X.u
    let eio := rotAll (e1.take ni) Xi.u
    let exo := rotAll (e1.drop ni) Xx.u
    let ns := min eio.length fo.length + min exo.length fo.length
    let e2 := eio ++ exo
    let e3 := (List.range ns).map fun k => col e2 (argsort ns (fun i => -|bothSvals eio.length fo.length Xi Xx i|) k)
    if ntarget < fo.length then none
    else
      let nadd := min eo.length (ntarget - fo.length)
      some (fo ++ e3.take nadd, e3.drop nadd)

end Verif.ImpSpace
