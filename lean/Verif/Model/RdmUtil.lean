import Mathlib.Algebra.BigOperators.Group.Finset.Basic
import Mathlib.Algebra.Field.Defs
import Mathlib.Data.Nat.Factorial.Basic
/-!
# Model of the density-matrix utilities

/repo/util/rdm.py:154-181, 220-288, 292-320. Arrays are functions of indices, numbers are elements of a field.
-/
namespace Verif.RdmUtil

variable {K : Type} [Field K]

abbrev Mat (K : Type) := Nat → Nat → K
abbrev Ten (K : Type) := Nat → Nat → Nat → Nat → K

/-- `np.multiply.outer (a, b)`. -/
def outer (a b : Mat K) : Ten K := fun p q r s => a p q * b r s

/-- `.transpose (0, 3, 2, 1)`: axis `k` of the result is axis `(0,3,2,1)[k]` of the argument. -/
def transpose0321 (t : Ten K) : Ten K := fun p q r s => t p s r q

/-- The argument `oneRDMs`: with or without a spin axis. -/
inductive OneRdm (K : Type)
  | summed (d : Mat K)
  | sep (a b : Mat K)

/-- rdm.py:221-229: spin components. -/
def OneRdm.spin : OneRdm K → Mat K × Mat K
  | .summed d => (fun p q => d p q / 2, fun p q => d p q / 2)
  | .sep a b => (a, b)

/-- rdm.py:221-229: spin sum. -/
def OneRdm.total : OneRdm K → Mat K
  | .summed d => d
  | .sep a b => fun p q => a p q + b p q

/-- rdm.py:220-236 `get_2CDM_from_2RDM`. -/
def get2CDM (t : Ten K) (d : OneRdm K) : Ten K :=
  let t : Ten K := fun p q r s => t p q r s - outer d.total d.total p q r s
  let t : Ten K := fun p q r s => t p q r s + transpose0321 (outer d.spin.1 d.spin.1) p q r s
  fun p q r s => t p q r s + transpose0321 (outer d.spin.2 d.spin.2) p q r s

/-- rdm.py:255-271 `get_2RDM_from_2CDM`. -/
def get2RDM (t : Ten K) (d : OneRdm K) : Ten K :=
  let t : Ten K := fun p q r s => t p q r s + outer d.total d.total p q r s
  let t : Ten K := fun p q r s => t p q r s - transpose0321 (outer d.spin.1 d.spin.1) p q r s
  fun p q r s => t p q r s - transpose0321 (outer d.spin.2 d.spin.2) p q r s

/-- Spin-separated two-body arrays `(aa, ab, bb)`. -/
structure Three (K : Type) where
  aa : Ten K
  ab : Ten K
  bb : Ten K

/-- rdm.py:238-253 `get_2CDMs_from_2RDMs`. -/
def get2CDMs (t : Three K) (d : OneRdm K) : Three K where
  aa := fun p q r s => (t.aa p q r s - outer d.spin.1 d.spin.1 p q r s) + transpose0321 (outer d.spin.1 d.spin.1) p q r s
  ab := fun p q r s => t.ab p q r s - outer d.spin.1 d.spin.2 p q r s
  bb := fun p q r s => (t.bb p q r s - outer d.spin.2 d.spin.2 p q r s) + transpose0321 (outer d.spin.2 d.spin.2) p q r s

/-- rdm.py:273-288 `get_2RDMs_from_2CDMs`. -/
def get2RDMs (t : Three K) (d : OneRdm K) : Three K where
  aa := fun p q r s => (t.aa p q r s + outer d.spin.1 d.spin.1 p q r s) - transpose0321 (outer d.spin.1 d.spin.1) p q r s
  ab := fun p q r s => t.ab p q r s + outer d.spin.1 d.spin.2 p q r s
  bb := fun p q r s => (t.bb p q r s + outer d.spin.2 d.spin.2 p q r s) - transpose0321 (outer d.spin.2 d.spin.2) p q r s

/-- rdm.py:154-172 `electronic_energy_orbital_decomposition`; `n` is the dimension of the arrays and the result is the
vector of length `norbs_tot ≤ n`. `none` for an absent argument. -/
def orbDecomp (n : Nat) (one : Option (Mat K × Mat K)) (two : Option (Ten K × Ten K)) (x : Nat) : K :=
  let R := Finset.range n
  let e : K := 0
  let e := match one with
    | none => e
    | some (h, d) => e + 2⁻¹ * (∑ j ∈ R, h x j * d x j) + 2⁻¹ * (∑ i ∈ R, h i x * d i x)
  match two with
    | none => e
    | some (g, t) => e + 8⁻¹ * (∑ j ∈ R, ∑ k ∈ R, ∑ l ∈ R, g x j k l * t x j k l)
        + 8⁻¹ * (∑ i ∈ R, ∑ k ∈ R, ∑ l ∈ R, g i x k l * t i x k l)
        + 8⁻¹ * (∑ i ∈ R, ∑ j ∈ R, ∑ l ∈ R, g i j x l * t i j x l)
        + 8⁻¹ * (∑ i ∈ R, ∑ j ∈ R, ∑ k ∈ R, g i j k x * t i j k x)

/-- An array with its number of axes and its raveled contents. -/
structure Arr (K : Type) where
  ndim : Nat
  data : List K

/-- rdm.py:174-181 `get_E_from_RDMs`. -/
def getE (eis rdms : List (Arr K)) : K :=
  (eis.zip rdms).foldl (fun energy x =>
    energy + (1 / (Nat.factorial x.1.ndim : K)) * ((x.1.data.zip x.2.data).map (fun y => y.1 * y.2)).sum) 0

/-- rdm.py:292-320 `S2_exptval`; `n` orbitals, spin-summed matrices. -/
def s2Exptval (n : Nat) (d : Mat K) (t : Ten K) (cumulant : Bool) : K :=
  let t := if cumulant then t else get2CDM t (.summed d)
  let R := Finset.range n
  ∑ p ∈ R, (d p p - (∑ q ∈ R, d p q * d q p) / 2 - (∑ q ∈ R, t p q q p) / 2)

end Verif.RdmUtil
