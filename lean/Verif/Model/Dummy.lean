import Verif.Model.Fockspace
import Mathlib.Data.Nat.Choose.Basic
/-!
# Model of the dummy-orbital padding (/repo/my_pyscf/fci/dummy.py)

A CI vector is a function of the spin-up and spin-down string addresses; the leading axis of several vectors is independent.
`cistring.num_strings (n, k)` (external) is the binomial coefficient.
-/
namespace Verif.Dummy

/-- The slice bounds and sign of dummy.py:9-16 (repeated at 32-40 and 49-56): `(ia, ja, ib, jb, sgn)`. Occupations
are 0 or 1, as `Bool`. -/
structure Params where
  ia : Nat
  ja : Nat
  ib : Nat
  jb : Nat
  sgn : Int
  ndeta1 : Nat
  ndetb1 : Nat
deriving DecidableEq, Repr

/-- dummy.py:30-42 `dummy_orbital_params`. -/
def params (norb na nb : Nat) (occA occB : Bool) : Params :=
  let ndeta0 := norb.choose na
  let ndetb0 := norb.choose nb
  let ndeta1 := (norb + 1).choose (na + occA.toNat)
  let ndetb1 := (norb + 1).choose (nb + occB.toNat)
  let a := if occA then (ndeta1 - ndeta0, ndeta1) else (0, ndeta0)
  let b := if occB then (ndetb1 - ndetb0, ndetb1) else (0, ndetb0)
  ⟨a.1, a.2, b.1, b.2, if occB.toNat * (na % 2) = 1 then -1 else 1, ndeta1, ndetb1⟩

/-- dummy.py:5-28 `add_orbital`: `ci1[:,ia:ja,ib:jb] = sgn * ci0` in an array of zeros. -/
def addOrbital {K : Type} [Ring K] (ci0 : Nat → Nat → K) (norb na nb : Nat) (occA occB : Bool) : Nat → Nat → K :=
  let p := params norb na nb occA occB
  fun A B => if p.ia ≤ A ∧ A < p.ja ∧ p.ib ≤ B ∧ B < p.jb then (p.sgn : K) * ci0 (A - p.ia) (B - p.ib) else 0

/-- dummy.py:45-68 `read_orbital`: `ci0 = sgn * ci1[:,ia:ja,ib:jb]`. -/
def readOrbital {K : Type} [Ring K] (ci1 : Nat → Nat → K) (norb na nb : Nat) (occA occB : Bool) : Nat → Nat → K :=
  let p := params norb na nb occA occB
  fun A B => (p.sgn : K) * ci1 (p.ia + A) (p.ib + B)

end Verif.Dummy
