import Mathlib.Algebra.BigOperators.Ring.Finset
import Mathlib.Algebra.BigOperators.Intervals
import Mathlib.Data.Finset.Powerset
import Mathlib.Analysis.Real.Sqrt
import Mathlib.Tactic.Ring
import Mathlib.Tactic.Linarith
/-!
# Model of the spin ladder operators

/repo/my_pyscf/fci/spin_op.py and the loops of `get_ci_szrot`, /repo/my_pyscf/lassi/spaces.py:273-316.

A string of `ne` electrons in `norb` orbitals is the set of occupied orbitals. A CI vector is a function of an alpha and
a beta string; the bijection between strings and addresses (`cistring`, external) is not modelled. Floating-point
numbers are real numbers.
-/
namespace Verif.SpinOp
open Finset

/-- A CI vector. -/
abbrev Vec := Finset ℕ → Finset ℕ → ℝ

/-- The strings of `ne` electrons in `norb` orbitals. -/
def strings (norb ne : ℕ) : Finset (Finset ℕ) := (range norb).powersetCard ne

/-- The sign in the tables `gen_des_str_index`/`gen_cre_str_index` (external): one factor -1 for each electron in an
orbital above `i`. -/
noncomputable def sgn (a : Finset ℕ) (i : ℕ) : ℝ := (-1) ^ (a.filter (i < ·)).card

/-- spin_op.py:22-72 `contract_sladder` with `op = -1`. The loops over the orbital and over the addresses of the
strings with nonzero sign, each adding one number to `ci1`. The empty array returned when nothing can be lowered is the
zero vector. -/
noncomputable def contractSdown (norb : ℕ) (na nb : ℕ) (ci : Vec) : Vec :=
  if na = 0 ∨ nb = norb then fun _ _ => 0
  else fun a' b' => ∑ i ∈ range norb, ∑ a ∈ strings norb na, ∑ b ∈ strings norb nb,
    if (i ∈ a ∧ i ∉ b) ∧ a.erase i = a' ∧ insert i b = b' then
      ci a b * sgn a i * sgn b i * (-1) ^ (na - 1) else 0

/-- spin_op.py:22-72 `contract_sladder` with `op = 1`. -/
noncomputable def contractSup (norb : ℕ) (na nb : ℕ) (ci : Vec) : Vec :=
  if na = norb ∨ nb = 0 then fun _ _ => 0
  else fun a' b' => ∑ i ∈ range norb, ∑ a ∈ strings norb na, ∑ b ∈ strings norb nb,
    if (i ∉ a ∧ i ∈ b) ∧ insert i a = a' ∧ b.erase i = b' then
      ci a b * sgn a i * sgn b i * (-1) ^ na else 0

/-- spin_op.py:12-15 `norm_sdown` -/
noncomputable def normSdown (smult : ℤ) (na nb : ℕ) : ℝ :=
  let s2 := smult - 1
  let m2 := (na : ℤ) - nb
  Real.sqrt ((s2 - m2 + 2) * (s2 + m2) / 4)

/-- spin_op.py:17-20 `norm_sup` -/
noncomputable def normSup (smult : ℤ) (na nb : ℕ) : ℝ :=
  let s2 := smult - 1
  let m2 := (na : ℤ) - nb
  Real.sqrt ((s2 - m2) * (s2 + m2 + 2) / 4)

/-- `ci /= x` -/
noncomputable def scale (x : ℝ) (ci : Vec) : Vec := fun a b => ci a b / x

/-- spin_op.py:91-119 `mdown`, one vector: `for j in range (k,0,-1)`. -/
noncomputable def mdownLoop (norb na nb : ℕ) (smult : ℤ) : ℕ → Vec → Vec
  | 0, ci => ci
  | j + 1, ci => mdownLoop norb na nb smult j
      (scale (normSdown smult (na + (j + 1)) (nb - (j + 1))) (contractSdown norb (na + (j + 1)) (nb - (j + 1)) ci))

/-- spin_op.py:91-119 `mdown`. -/
noncomputable def mdown (norb na nb : ℕ) (smult : ℤ) (ci : Vec) : Vec :=
  mdownLoop norb na nb smult ((smult - 1 - ((na : ℤ) - nb)) / 2).toNat ci

/-- spin_op.py:121-149 `mup`, one vector: `for j in range (k)`; `j` counts the iterations done. -/
noncomputable def mupLoop (norb na nb : ℕ) (smult : ℤ) (j : ℕ) : ℕ → Vec → Vec
  | 0, ci => ci
  | r + 1, ci => mupLoop norb na nb smult (j + 1) r
      (scale (normSup smult (na + j) (nb - j)) (contractSup norb (na + j) (nb - j) ci))

/-- spin_op.py:121-149 `mup`. -/
noncomputable def mup (norb na nb : ℕ) (smult : ℤ) (ci : Vec) : Vec :=
  mupLoop norb na nb smult 0 ((smult - 1 - ((na : ℤ) - nb)) / 2).toNat ci

/-- spaces.py:298-304: the loop `for sz1 in range (sz-2, -(1+smult), -2)`, as the list of dictionary entries it adds.
`fuel` is the number of values of the range. -/
noncomputable def szrotDown (norb : ℕ) (smult : ℤ) : ℕ → ℤ → ℕ → ℕ → Vec → List (ℤ × Vec)
  | 0, _, _, _, _ => []
  | n + 1, sz1, na, nb, ci =>
    let ci1 := scale (normSdown smult na nb) (contractSdown norb na nb ci)
    (sz1, ci1) :: szrotDown norb smult n (sz1 - 2) (na - 1) (nb + 1) ci1

/-- spaces.py:307-313: the loop `for sz1 in range (sz+2, (1+smult), 2)`. -/
noncomputable def szrotUp (norb : ℕ) (smult : ℤ) : ℕ → ℤ → ℕ → ℕ → Vec → List (ℤ × Vec)
  | 0, _, _, _, _ => []
  | n + 1, sz1, na, nb, ci =>
    let ci1 := scale (normSup smult na nb) (contractSup norb na nb ci)
    (sz1, ci1) :: szrotUp norb smult n (sz1 + 2) (na + 1) (nb - 1) ci1

/-- Number of values in `range (start, stop, step)` for positive `step`. -/
def rangeLen (start stop step : ℤ) : ℕ := ((stop - start + step - 1) / step).toNat

/-- spaces.py:289-314: the dictionary built for one fragment (one vector), as its list of entries. -/
noncomputable def getCiSzrot (norb : ℕ) (smult : ℤ) (na nb : ℕ) (ci : Vec) : List (ℤ × Vec) :=
  let sz := (na : ℤ) - nb
  (sz, ci) :: (szrotDown norb smult (rangeLen (-(sz - 2)) (1 + smult) 2) (sz - 2) na nb ci ++
    szrotUp norb smult (rangeLen (sz + 2) (1 + smult) 2) (sz + 2) na nb ci)

end Verif.SpinOp
