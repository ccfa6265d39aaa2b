import Verif.Model.ImpSpace
import Mathlib.Algebra.Order.Field.Basic
/-!
# Model of the singular value decomposition used when LAPACK's fails

/repo/util/la.py:77-132 (`fake_svd`, 98-130), for real matrices with `m` rows and `n` columns, not all zero. The two results of
`scipy.linalg.eigh` and that of the second call of `scipy.linalg.svd` (113) are inputs; the case in which the latter fails as well (117-122,
where a warning announces that the result is wrong for degenerate singular values) is not modelled.
-/
namespace Verif.SafeSvd
open Verif.ImpSpace

variable {K : Type} [Field K] [LinearOrder K]

/-- la.py:99: `aTa`. -/
def ata (m : Nat) (a : Nat → Nat → K) (j j' : Nat) : K := ∑ i ∈ Finset.range m, a i j * a i j'

/-- la.py:102: `aaT`. -/
def aat (n : Nat) (a : Nat → Nat → K) (i i' : Nat) : K := ∑ j ∈ Finset.range n, a i j * a i' j

/-- la.py:106: the singular values of the first pass, from the eigenvalues of `-aaT` and `-aTa`. -/
def svals0 (sqrt : K → K) (wu wv : Nat → K) (k : Nat) : K := sqrt (max ((wu k + wv k) * -(1 / 2)) 0)

/-- la.py:110-111: `K1`, the number of singular values, relative to the largest, above the threshold `thr` (1e-7). -/
def kept (sqrt : K → K) (thr : K) (m n : Nat) (wu wv : Nat → K) : Nat :=
  let amax := (List.range (min m n)).foldl (fun x k => max x (svals0 sqrt wu wv k)) (svals0 sqrt wu wv 0)
  ((List.range (min m n)).filter fun k => decide (thr < svals0 sqrt wu wv k / amax)).length

/-- la.py:112: `a1`. -/
def core (m n : Nat) (a u v : Nat → Nat → K) (l l' : Nat) : K := ∑ i ∈ Finset.range m, ∑ j ∈ Finset.range n, u i l * a i j * v j l'

/-- la.py:115-116: the first `k1` columns are rotated. -/
def blockRot (k1 : Nat) (u c : Nat → Nat → K) (i k : Nat) : K := if k < k1 then ∑ l ∈ Finset.range k1, u i l * c l k else u i k

/-- la.py:99-123 `fake_svd`: `u`, `svals` and `vH`; `k1` is `K1`, `X` the SVD of `a1`. -/
def fakeSvd (sqrt : K → K) (k1 : Nat) (wu wv : Nat → K) (u v : Nat → Nat → K) (X : Svd K) : Svd K where
  u := blockRot k1 u X.u
  s := fun k => if k < k1 then X.s k else svals0 sqrt wu wv k
  vh := fun k j => blockRot k1 v (fun l p => X.vh p l) j k

/-- la.py:123, 128-130: the shapes of `u` and `vH`: with `full_matrices=False`, `u` and `v` are truncated after `vH` was made from `v`. -/
def fakeShapes (fullMatrices : Bool) (m n : Nat) : (Nat × Nat) × (Nat × Nat) :=
  let k := min m n
  let vH := (n, n)
  let u := if fullMatrices then (m, m) else (m, k)
  (u, vH)

end Verif.SafeSvd
