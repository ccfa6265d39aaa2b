import Verif.Spec.Radix
import Mathlib.Algebra.BigOperators.Group.Finset.Basic
import Mathlib.Algebra.Ring.Defs
/-!
# Specification: density matrices of one or two sites of a wave function over product states

A wave function over `n` sites, site `f` with `l[f]` local states, is a coefficient for every configuration, i.e. every choice
of one local state per site.
-/
namespace Verif.Spec

/-- All configurations: all lists with one entry below each extent. -/
def configs : List Nat → List (List Nat)
  | [] => [[]]
  | b :: bs => (List.range b).flatMap fun c => (configs bs).map (c :: ·)

example : configs [2, 3] = [[0, 0], [0, 1], [0, 2], [1, 0], [1, 1], [1, 2]] := by decide

variable {K : Type} [CommSemiring K]

/-- `⟨psi| (|p⟩⟨q| on the site, identity on all others) |psi⟩`: configurations with `p` on the site, against the
same configuration with `q` on the site. -/
def siteDm (conj : K → K) (l : List Nat) (site : Nat) (psi : List Nat → K) (p q : Nat) : K :=
  ∑ x ∈ (configs l).toFinset with x.getD site 0 = p, conj (psi x) * psi (x.set site q)

/-- The same for two sites: `⟨psi| (|p⟩⟨r| on site 1, |q⟩⟨s| on site 2) |psi⟩`. -/
def siteDm2 (conj : K → K) (l : List Nat) (site1 site2 : Nat) (psi : List Nat → K) (p r q s : Nat) : K :=
  ∑ x ∈ (configs l).toFinset with x.getD site1 0 = p ∧ x.getD site2 0 = q,
    conj (psi x) * psi ((x.set site1 r).set site2 s)

/-- `⟨psi| (|p⟩⟨q| on the site) |phi⟩` for wave functions over different sets of local states: `S f n m` is the overlap of
local state `n` of site `f` in the bra with local state `m` of site `f` in the ket. -/
def transSiteDm (conj : K → K) (lbra lket : List Nat) (S : Nat → Nat → Nat → K) (site : Nat)
    (psi phi : List Nat → K) (p q : Nat) : K :=
  ∑ x ∈ (configs lbra).toFinset with x.getD site 0 = p, ∑ y ∈ (configs lket).toFinset with y.getD site 0 = q,
    conj (psi x) * (∏ f ∈ (Finset.range lbra.length).erase site, S f (x.getD f 0) (y.getD f 0)) * phi y

/-- What the code takes from `scipy.linalg.norm`: the square of the norm is the sum of the squared moduli, the norm is real,
and only the zero vector has norm zero. -/
structure IsNorm (conj : K → K) (nrm : List K → K) : Prop where
  sq : ∀ v, nrm v * nrm v = (v.map fun x => conj x * x).sum
  real : ∀ v, conj (nrm v) = nrm v
  zero : ∀ v, nrm v = 0 → ∀ x ∈ v, x = 0

end Verif.Spec
