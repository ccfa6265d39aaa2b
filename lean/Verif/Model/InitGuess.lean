import Mathlib.Algebra.BigOperators.Group.Finset.Basic
import Mathlib.Algebra.Field.Defs
/-!
# Model of the combination of stored and generated CI vectors

/repo/my_pyscf/mcscf/lasci.py:447-470.

Vectors are real. An array is its shape and its elements in row-major order, as a function; `reshape` and `asarray` do not move
elements. An exception is `none`. The orthogonal factor of `scipy.linalg.qr` is a parameter.
-/
namespace Verif.InitGuess

variable {K : Type} [Field K]

/-- `ndarray` -/
structure Arr (K : Type) where
  shape : List Nat
  val : Nat → K

/-- `a.size` -/
def Arr.size (a : Arr K) : Nat := a.shape.prod

/-- `a.reshape (n, -1)` and `a.reshape (-1, m)` for a given second dimension: raises `ValueError` if the size does not fit. -/
def rows (n : Nat) (a : Arr K) : Option Nat := if n ≠ 0 ∧ a.size % n = 0 then some (a.size / n) else none

/-- lasci.py:453-454 and 455-456: `size % ndet[0]*ndet[1] == 0`. `%` and `*` have the same precedence and associate to the left. -/
def fits (nda ndb : Nat) (a : Arr K) : Bool := a.size % nda * ndb == 0

/-- lasci.py:454, 456: `reshape (-1, ndet[0], ndet[1])`. -/
def reshape3 (nda ndb : Nat) (a : Arr K) : Option (Arr K) := (rows (nda * ndb) a).map fun n => ⟨[n, nda, ndb], a.val⟩

/-- lasci.py:461-464: `cg -= (cg @ cs.T) @ cs`, where `cg` and `cs` have rows of `m` and `m'` elements. `cg` is a view of `ci0g`. -/
def projectOut (nroots0 m : Nat) (cg cs : Nat → K) : Nat → K := fun k =>
  cg k - ∑ s ∈ Finset.range nroots0, (∑ x ∈ Finset.range m, cg (k / m * m + x) * cs (s * m + x)) * cs (s * m + k % m)

/-- lasci.py:465: `cg @ cg.T`. -/
def gram (m : Nat) (cg : Nat → K) (r s : Nat) : K := ∑ x ∈ Finset.range m, cg (r * m + x) * cg (s * m + x)

/-- lasci.py:467: `Q.T @ ci0g` of a matrix of dimension `nroots` and an array of three dimensions: `numpy` multiplies the matrix
with each matrix `ci0g[r]`, whose number of rows must be `nroots`. -/
def matmul3 (nroots : Nat) (Q : Nat → Nat → K) (a : Arr K) : Option (Arr K) :=
  match a.shape with
  | [n, nda, ndb] => if nda = nroots then
      some ⟨[n, nda, ndb], fun k => ∑ i ∈ Finset.range nroots, Q i (k / ndb % nda) * a.val ((k / ndb / nda * nda + i) * ndb + k % ndb)⟩
    else none
  | _ => none

/-- lasci.py:468: `np.append (a, b, axis=0)[:nroots]`, for arrays of three dimensions of which the last two agree. -/
def appendCut (nroots : Nat) (a b : Arr K) : Option (Arr K) :=
  match a.shape, b.shape with
  | [n, nda, ndb], [n', nda', ndb'] => if nda = nda' ∧ ndb = ndb' then
      some ⟨[min nroots (n + n'), nda, ndb], fun k => if k < n * nda * ndb then a.val k else b.val (k - n * nda * ndb)⟩
    else none
  | _, _ => none

/-- `a[0]` of an array. -/
def first (a : Arr K) : Option (Arr K) :=
  match a.shape with
  | n :: rest => if 0 < n then some ⟨rest, a.val⟩ else none
  | [] => none

/-- lasci.py:453-468: the vectors before `[0]` is taken. `ci0i` is `none` if no vectors are stored; `qr` maps a dimension and a matrix to
the orthogonal factor. -/
def combined (qr : Nat → (Nat → Nat → K) → Nat → Nat → K) (ci0i : Option (Arr K)) (ci0g : Arr K) (nda ndb nroots : Nat) :
    Option (Arr K) := do
  let g ← if fits nda ndb ci0g then reshape3 nda ndb ci0g else some ci0g
  let stored : Option (Arr K × Nat) ← match ci0i with
    | none => some none
    | some a => if fits nda ndb a then (reshape3 nda ndb a).map fun b => some (b, b.shape.headD 0) else some (some (a, 0))
  match stored with
  | none => some g
  | some (c, nroots0) =>
    if nroots0 = 0 then some g
    else if nroots0 < nroots then do
      let m ← rows nroots g
      let m' ← rows nroots0 c
      if m = m' then
        let cg := projectOut nroots0 m g.val c.val
        let g' ← matmul3 nroots (qr nroots (gram m cg)) ⟨g.shape, cg⟩
        appendCut nroots c g'
      else none
    else some c

/-- lasci.py:447-470 `_combine_init_guess_ci`. -/
def combine (qr : Nat → (Nat → Nat → K) → Nat → Nat → K) (ci0i : Option (Arr K)) (ci0g : Arr K) (nda ndb nroots : Nat) :
    Option (Arr K) := do
  let c ← combined qr ci0i ci0g nda ndb nroots
  if nroots = 1 then first c else some c

end Verif.InitGuess
