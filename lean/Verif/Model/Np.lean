import Verif.Spec.Radix
import Mathlib.Algebra.BigOperators.Group.Finset.Basic
import Mathlib.Algebra.Ring.Defs
/-!
# The NumPy array operations the modelled code uses

An array is a shape and a value for each multi-index (values at multi-indices outside the shape are
junk and never observed). This is the documented behaviour of NumPy, which is outside /repo: it belongs
to the trusted base.
-/
namespace Verif.Np
open Verif.Spec

/-- An n-dimensional array. -/
structure Nd (R : Type) where
  /-- `a.shape` -/
  shape : List Nat
  /-- `a[i,j,...]` -/
  get : List Nat → R

variable {R : Type}

/-- `np.unravel_index (k, dims, order='F')`. -/
def unravelF : List Nat → Nat → List Nat
  | [], _ => []
  | b :: bs, k => k % b :: unravelF bs (k / b)

/-- `np.unravel_index (k, dims)`. -/
def unravelC (dims : List Nat) (k : Nat) : List Nat := (unravelF dims.reverse k).reverse

/-- `a.size` -/
def Nd.size (a : Nd R) : Nat := a.shape.prod

/-- Entry `k` of `a.ravel ()` -/
def Nd.flat (a : Nd R) (k : Nat) : R := a.get (unravelC a.shape k)

/-- `a.reshape (*dims)`; `none` is NumPy's ValueError for incompatible sizes. -/
def Nd.reshape (a : Nd R) (dims : List Nat) : Option (Nd R) :=
  if dims.prod = a.shape.prod then some ⟨dims, fun t => a.get (unravelC a.shape (posC dims t))⟩ else none

/-- `a.reshape (dims, order='F')`; `none` is NumPy's ValueError. -/
def Nd.reshapeF (a : Nd R) (dims : List Nat) : Option (Nd R) :=
  if dims.prod = a.shape.prod then some ⟨dims, fun t => a.get (unravelF a.shape (posF dims t))⟩ else none

/-- `a.T` -/
def Nd.T (a : Nd R) : Nd R := ⟨a.shape.reverse, fun t => a.get t.reverse⟩

/-- `a.flatten (order='C')` -/
def Nd.flattenC (a : Nd R) : Nd R := ⟨[a.shape.prod], fun t => a.get (unravelC a.shape (t.getD 0 0))⟩

/-- `a.flatten (order='F')` -/
def Nd.flattenF (a : Nd R) : Nd R := ⟨[a.shape.prod], fun t => a.get (unravelF a.shape (t.getD 0 0))⟩

/-- `a.transpose (*axes)`, for `axes` a permutation of the axes of `a`: axis `k` of the result is axis
`axes[k]` of `a`. -/
def Nd.transpose (a : Nd R) (axes : List Nat) : Nd R :=
  ⟨axes.map (fun i => a.shape.getD i 0),
   fun t => a.get ((List.range a.shape.length).map (fun i => t.getD (axes.idxOf i) 0))⟩

/-- `np.tensordot (a, b, axes=1)`: contraction of the last axis of the matrix `a` with the first axis of `b`. -/
def tensordot1 [AddCommMonoid R] [Mul R] (a b : Nd R) : Option (Nd R) :=
  if a.shape.getD 1 0 = b.shape.getD 0 0 then
    some ⟨a.shape.getD 0 0 :: b.shape.drop 1,
      fun t => ∑ k ∈ Finset.range (a.shape.getD 1 0), a.get [t.getD 0 0, k] * b.get (k :: t.drop 1)⟩
  else none

/-- `a[i:j]` for `i ≤ j` -/
def Nd.slice0 (a : Nd R) (i j : Nat) : Nd R :=
  ⟨(min j (a.shape.getD 0 0) - i) :: a.shape.drop 1, fun t => a.get ((i + t.getD 0 0) :: t.drop 1)⟩

/-- `a[i:j] = b`; `none` is NumPy's broadcasting error. -/
def Nd.setSlice0 (a : Nd R) (i j : Nat) (b : Nd R) : Option (Nd R) :=
  if b.shape = (a.slice0 i j).shape then
    some ⟨a.shape, fun t =>
      if i ≤ t.getD 0 0 ∧ t.getD 0 0 < j then b.get ((t.getD 0 0 - i) :: t.drop 1) else a.get t⟩
  else none

/-- `np.argsort (l)` (for distinct entries, so that the choice of sorting algorithm does not matter). -/
def argsort (l : List Nat) : List Nat :=
  (List.range l.length).mergeSort (fun a b => decide (l.getD a 0 ≤ l.getD b 0))

/-- Same shape and same entries. -/
def Nd.Same (a b : Nd R) : Prop := a.shape = b.shape ∧ ∀ t, InShape t a.shape → a.get t = b.get t

end Verif.Np
