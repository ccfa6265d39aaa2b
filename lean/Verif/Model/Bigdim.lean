import Verif.Model.Np
/-!
# Model of /repo/util/bigdim.py
-/
namespace Verif.Bigdim
open Verif.Spec Verif.Np

variable {R : Type}

/-- /repo/util/bigdim.py:42-49: the loop body. The state is the array, `p` and the mutated `shape`.
`reshape (p,q,r,-1)` infers the last extent from the size (and fails when `p*q*r` is zero or does not
divide it). -/
def step (st : Option (Nd R × Nat × List Nat)) (i : Nat) : Option (Nd R × Nat × List Nat) :=
  st.bind fun (a, p, shape) =>
    let q := (shape.take (i + 1)).prod
    let r := shape.getD i 0
    let q := q / r
    if p * q * r = 0 then none else
    (a.reshape [p, q, r, a.size / (p * q * r)]).map fun a =>
      (a.transpose [0, 2, 1, 3], p * r, shape.set i 1)

/-- /repo/util/bigdim.py:6-50 `transpose`. `fOrder` is `order == 'F'`. An unsupported value of `order`
fails an assertion in the code and is not modelled. Negative axes are not modelled. -/
def transpose (a : Nd R) (shape axes : List Nat) (fOrder : Bool) : Option (Nd R) :=
  let a := if fOrder then a.flattenF else a.flattenC
  let ndim := shape.length
  if a.size ≠ shape.prod then none else
  if axes.length ≠ ndim then none else
  if axes.dedup.length ≠ ndim then none else
  let axes' := if fOrder then axes.reverse.map (fun i => ndim - 1 - i) else axes
  let shape' := if fOrder then shape.reverse else shape
  (axes'.foldl step (some (a, 1, shape'))).map fun (a, _, _) => a.flattenC

/-- The axis order of /repo/my_pyscf/lassi/op_o1/utilities.py:253 and :275. -/
def slowAxes (nfrags : Nat) (inv : List Nat) : List Nat :=
  (List.range nfrags).filter (fun i => decide (i ∉ inv)) ++ inv ++ [nfrags]

/-- /repo/my_pyscf/lassi/op_o1/utilities.py:230-256 `transpose_sivec_make_fragments_slow`. Division by zero
(`nprods == 0`) fails. -/
def makeFragmentsSlow (vec : Nd R) (lroots inv : List Nat) : Option (Nd R) :=
  let nfrags := lroots.length
  let nprods := lroots.prod
  if nprods = 0 then none else
  let nrootsSi := vec.size / nprods
  if vec.size % nprods ≠ 0 then none else
  let nrows := (inv.map (fun i => lroots.getD i 0)).prod
  let ncols := nprods / nrows
  (transpose vec (lroots ++ [nrootsSi]) (slowAxes nfrags inv) true).bind fun v =>
    (v.reshapeF [ncols, nrows, nrootsSi]).map Nd.T

/-- /repo/my_pyscf/lassi/op_o1/utilities.py:258-281 `transpose_sivec_with_slow_fragments`. -/
def withSlowFragments (vec : Nd R) (lroots inv : List Nat) : Option (Nd R) :=
  let nfrags := lroots.length
  let nprods := lroots.prod
  if nprods = 0 then none else
  let axes := slowAxes nfrags inv
  let nrootsSi := vec.size / nprods
  if vec.size % nprods ≠ 0 then none else
  let shape := axes.dropLast.map (fun i => lroots.getD i 0) ++ [nrootsSi]
  (transpose vec shape (argsort axes) true).bind fun v =>
    (v.reshapeF [nprods, nrootsSi]).map Nd.T

end Verif.Bigdim
