import Mathlib.Algebra.BigOperators.Group.Finset.Basic
import Mathlib.Algebra.Ring.Defs
/-!
# Model of the assembly of active-space density matrices from fragment density matrices
(/repo/my_pyscf/mcscf/lasci.py:1420-1478, 1480-1527, 1529-1599)

Arrays are functions of the list of indices. Numbers are elements of a commutative ring.
-/
namespace Verif.ProdRdm
open scoped BigOperators
variable {R : Type*} [CommRing R]

/-- An array; the argument is the list of indices. -/
abbrev Arr (R : Type*) := List Nat → R

/-- lasci.py:1456, 1496, 1573: `np.cumsum ([0] + ncas_sub.tolist ())[k]` -/
def cum (ncas : List Nat) (k : Nat) : Nat := (ncas.take k).sum

/-- Whether an index lies in the slices `cum[g0]:cum[g0+1], cum[g1]:cum[g1+1], …`. -/
def inBlock (ncas : List Nat) : List Nat → List Nat → Bool
  | [], [] => true
  | g :: gs, p :: ps => decide (cum ncas g ≤ p) && decide (p < cum ncas (g + 1)) && inBlock ncas gs ps
  | _, _ => false

/-- `A[slices] = V`; the slices are those of the fragments `g`. -/
def setB (ncas : List Nat) (A : Arr R) (g : List Nat) (V : Arr R) : Arr R := fun ps =>
  if inBlock ncas g ps then V (List.zipWith (fun f p => p - cum ncas f) g ps) else A ps

/-- `A[slices]` -/
def getB (ncas : List Nat) (A : Arr R) (g : List Nat) : Arr R := fun as =>
  A (List.zipWith (fun f a => cum ncas f + a) g as)

/-- `A[slices] -= V` and `A[slices] += V` -/
def subB (ncas : List Nat) (A : Arr R) (g : List Nat) (V : Arr R) : Arr R :=
  setB ncas A g (fun as => getB ncas A g as - V as)
@[inherit_doc subB]
def addB (ncas : List Nat) (A : Arr R) (g : List Nat) (V : Arr R) : Arr R :=
  setB ncas A g (fun as => getB ncas A g as + V as)

/-- An array with two, four or six indices, from a function (used for the results of `einsum` and `transpose`). -/
def arr2 (f : Nat → Nat → R) : Arr R | [a, b] => f a b | _ => 0
@[inherit_doc arr2]
def arr4 (f : Nat → Nat → Nat → Nat → R) : Arr R | [a, b, c, d] => f a b c d | _ => 0
@[inherit_doc arr2]
def arr6 (f : Nat → Nat → Nat → Nat → Nat → Nat → R) : Arr R | [a, b, c, d, e, g] => f a b c d e g | _ => 0

/-- `combinations (range n, 2)` -/
def comb2 (n : Nat) : List (Nat × Nat) :=
  (List.range n).flatMap fun i => ((List.range n).filter fun j => decide (i < j)).map fun j => (i, j)

/-- What the fragments supply: sizes, rootspace weights, and spin-separated one-body matrices
(`casdm1frs[f][r, s]`; `false` is alpha). -/
structure Frags (R : Type*) where
  ncas : List Nat
  nroots : Nat
  w : Nat → R
  dm1 : Nat → Nat → Bool → Nat → Nat → R

namespace Frags
/-- `dma + dmb` -/
def sf (F : Frags R) (f r a b : Nat) : R := F.dm1 f r false a b + F.dm1 f r true a b

/-- lasci.py:1460-1463, 1577-1580: the diagonal blocks. -/
def diag4 (F : Frags R) (dm2 : Nat → Arr R) (A : Arr R) : Arr R :=
  (List.range F.ncas.length).foldl (fun A f => setB F.ncas A [f, f, f, f] (dm2 f)) A

/-- lasci.py:1582-1598: one pass of the loop over pairs of fragments in `make_casdm2`. -/
def stepAvg (F : Frags R) (A : Arr R) (x : Nat × Nat) : Arr R :=
  let (f, g) := x
  let A := setB F.ncas A [f, f, g, g] (arr4 fun i j k l => ∑ r ∈ Finset.range F.nroots, F.w r * F.sf f r i j * F.sf g r k l)
  let A := setB F.ncas A [g, g, f, f] (arr4 fun a b c d => getB F.ncas A [f, f, g, g] [c, d, a, b])
  let A := subB F.ncas A [f, g, g, f] (arr4 fun i l k j => ∑ r ∈ Finset.range F.nroots,
    F.w r * (F.dm1 f r false i j * F.dm1 g r false k l + F.dm1 f r true i j * F.dm1 g r true k l))
  setB F.ncas A [g, f, f, g] (arr4 fun a b c d => getB F.ncas A [f, g, g, f] [b, a, d, c])

/-- lasci.py:1529-1599 `make_casdm2`. -/
def makeCasdm2 (F : Frags R) (dm2 : Nat → Arr R) : Arr R :=
  (comb2 F.ncas.length).foldl (F.stepAvg) (F.diag4 dm2 fun _ => 0)

/-- lasci.py:1464-1477: one pass of the loop over pairs of fragments in `state_make_casdm2`. -/
def stepState (F : Frags R) (r : Nat) (A : Arr R) (x : Nat × Nat) : Arr R :=
  let (f, g) := x
  let A := setB F.ncas A [f, f, g, g] (arr4 fun i j k l => F.sf f r i j * F.sf g r k l)
  let A := setB F.ncas A [g, g, f, f] (arr4 fun a b c d => getB F.ncas A [f, f, g, g] [c, d, a, b])
  let A := setB F.ncas A [f, g, g, f] (arr4 fun a b c d =>
    -(F.dm1 f r false a d * F.dm1 g r false c b + F.dm1 f r true a d * F.dm1 g r true c b))
  setB F.ncas A [g, f, f, g] (arr4 fun a b c d => getB F.ncas A [f, g, g, f] [b, a, d, c])

/-- lasci.py:1420-1478 `state_make_casdm2`; `r` is `state`. -/
def stateMakeCasdm2 (F : Frags R) (dm2 : Nat → Nat → Arr R) (r : Nat) : Arr R :=
  (comb2 F.ncas.length).foldl (F.stepState r) (F.diag4 (fun f => dm2 f r) fun _ => 0)

/-- lasci.py:1508-1526: one pass of the loop over pairs of fragments in `make_casdm2s`, for the component with first spin `s`
and second spin `t` (`casdm2s[0]` is aa, `[1]` is ab, `[2]` is bb). -/
def stepSpin (F : Frags R) (s t : Bool) (A : Arr R) (x : Nat × Nat) : Arr R :=
  let (f, g) := x
  let A := setB F.ncas A [f, f, g, g] (arr4 fun i j k l => ∑ r ∈ Finset.range F.nroots, F.w r * F.dm1 f r s i j * F.dm1 g r t k l)
  let A := setB F.ncas A [g, g, f, f] (arr4 fun a b c d => getB F.ncas A [f, f, g, g] [c, d, a, b])
  if s = t then
    let A := subB F.ncas A [f, g, g, f] (arr4 fun i l k j => ∑ r ∈ Finset.range F.nroots, F.w r * (F.dm1 f r s i j * F.dm1 g r s k l))
    setB F.ncas A [g, f, f, g] (arr4 fun a b c d => getB F.ncas A [f, g, g, f] [b, a, d, c])
  else A

/-- lasci.py:1480-1527 `make_casdm2s`: component `(s, t)`. -/
def makeCasdm2s (F : Frags R) (dm2s : Nat → Bool → Bool → Arr R) (s t : Bool) : Arr R :=
  (comb2 F.ncas.length).foldl (F.stepSpin s t) (F.diag4 (fun f => dm2s f s t) fun _ => 0)

end Frags
end Verif.ProdRdm
