import Mathlib.Algebra.Order.Group.Unbundled.Int
import Mathlib.Algebra.Order.Round
import Mathlib.Algebra.BigOperators.Group.List.Basic
import Mathlib.Data.Rat.Floor
/-!
# Model of products of Clebsch-Gordan coefficients

/repo/my_pyscf/tools/cg.py:8-172. SymPy's coefficient is the parameter `CG j1 m1 j2 m2 j3 m3`, with all arguments doubled; numbers are exact.
-/
namespace Verif.CgProd

variable {K : Type} [CommRing K]

/-- cg.py:14-17: what holds of the magnitudes and polarizations. -/
def okM (j m : List Int) : Bool :=
  decide (j.length = m.length) && (List.range j.length).all fun k =>
    decide (0 ≤ j.getD k 0) && decide (|m.getD k 0| ≤ j.getD k 0) && decide (j.getD k 0 % 2 = m.getD k 0 % 2)

/-- cg.py:12-29 `_assert_j2m2` with `mcoup`: also the triangle rule (18-29), with `j2c = cumsum (m2)` and `j2a = j2c - m2`. -/
def okJ (j p : List Int) : Bool :=
  okM j p && (List.range j.length).all fun k =>
    let c := (p.take (k + 1)).sum
    let a := c - p.getD k 0
    decide (|a - j.getD k 0| ≤ c) && decide (c ≤ a + j.getD k 0)

/-- Python's `range (a, b, 2)`. -/
def range2 (a b : Int) : List Int := (List.range ((b - a + 1) / 2).toNat).map fun i : Nat => a + 2 * (i : Int)

/-- cg.py:67-70, 119-121: `fac = 2 // fac` and the multiplication by it. `np.around` rounds halves to even numbers, `round` here upwards. -/
def scaled (f : Int) (x : List Rat) : List Int := x.map fun q : Rat => round (q * f)

/-- cg.py:78-84: the factors of the loop from `i = 1` on, given the running sums. -/
def prodFrom (CG : Int → Int → Int → Int → Int → Int → K) (j p m : List Int) : Nat → K
  | 0 => 1
  | n + 1 => prodFrom CG j p m n * CG (p.take (n + 1)).sum (m.take (n + 1)).sum (j.getD (n + 1) 0) (m.getD (n + 1) 0) (p.take (n + 2)).sum (m.take (n + 2)).sum

/-- cg.py:41-85 `cg_prod`; `none` if an assertion fails. -/
def cgProd (CG : Int → Int → Int → Int → Int → Int → K) (fac : Int) (jmag jpol mpol : List Rat) : Option K :=
  let f := 2 / fac
  let j := scaled f jmag
  let p := scaled f jpol
  let m := scaled f mpol
  if okJ j p ∧ okM j m ∧ m.sum ∈ range2 (-p.sum) (p.sum + 1) then some (prodFrom CG j p m (j.length - 1)) else none

/-- cg.py:128-152 `_recurse`: strings and coefficients. -/
def step (CG : Int → Int → Int → Int → Int → Int → K) (ja jb jc hi lo : Int) (cur : List (List Int × K)) : List (List Int × K) :=
  cur.flatMap fun x =>
    (range2 (max (lo - x.1.sum) (-jb)) (min (hi - x.1.sum) jb + 1)).map fun mb =>
      (x.1 ++ [mb], x.2 * CG ja x.1.sum jb mb jc (x.1.sum + mb))

/-- cg.py:158-168: the loop. -/
def loop (CG : Int → Int → Int → Int → Int → Int → K) (mtot : Int) : List (Int × Int) → Int → Int → List (List Int × K) → List (List Int × K)
  | [], _, _, cur => cur
  | x :: rest, ja, mrem, cur =>
    loop CG mtot rest (ja + x.2) (mrem - x.1) (step CG ja x.1 (ja + x.2) (mtot + (mrem - x.1)) (mtot - (mrem - x.1)) cur)

/-- cg.py:87-172 `cg_prod_vec`; `none` if an assertion fails or `np.stack` (171) receives an empty list. -/
def cgProdVec (CG : Int → Int → Int → Int → Int → Int → K) (fac : Int) (jmag jpol : List Rat) (mtot : Int) : Option (List (List Int × K)) :=
  let f := 2 / fac
  let j := scaled f jmag
  let p := scaled f jpol
  if okJ j p then
    match loop CG (mtot * f) (j.zip p) 0 j.sum [([], 1)] with
    | [] => none
    | l => some (l.map fun x => (x.1.map fun m => m / f, x.2))
  else none

end Verif.CgProd
