import Mathlib.Algebra.BigOperators.Group.Finset.Basic
import Mathlib.Algebra.Field.Defs
import Mathlib.Order.Interval.Finset.Nat
/-!
# Model of the product-state density matrices and fragment Hamiltonians

/repo/my_pyscf/mcscf/productstate.py:239-331. Arrays are functions of global orbital indices, of which only those below the
number of orbitals are used; numbers are elements of a field; spin is `Bool` (`false` = α). `h1` has the spin axis
(lines 241, 249 add it if absent). Slices `[i:j]` are restrictions of index sums to `i ≤ p < j`.
-/
namespace Verif.PsEnergy

variable {K : Type} [Field K]

abbrev Mat (K : Type) := Nat → Nat → K
abbrev Ten (K : Type) := Nat → Nat → Nat → Nat → K

/-- What the fragment solver returns: `make_rdm1s` and `make_rdm2`, in fragment orbital indices. -/
structure FragDm (K : Type) where
  d : Bool → Mat K
  D : Ten K

/-- productstate.py:287-289: `ni`. -/
def lo (norb : List Nat) (f : Nat) : Nat := (norb.take f).sum
/-- productstate.py:287-289: `nj`. -/
def hi (norb : List Nat) (f : Nat) : Nat := lo norb f + norb.getD f 0

/-- Orbital `p` lies in the slice of fragment `f`. -/
def ins (norb : List Nat) (f p : Nat) : Bool := decide (lo norb f ≤ p) && decide (p < hi norb f)

/-- productstate.py:284-305 `make_rdm1s`. -/
def makeRdm1s (norb : List Nat) (fr : Nat → FragDm K) (σ : Bool) : Mat K :=
  (List.range norb.length).foldl (fun (dm : Mat K) f => fun p q =>
    if ins norb f p && ins norb f q then (fr f).d σ (p - lo norb f) (q - lo norb f) else dm p q) (fun _ _ => 0)

/-- `itertools.combinations (range n, 2)`. -/
def combinations2 (n : Nat) : List (Nat × Nat) :=
  (List.range n).flatMap (fun f => ((List.range n).filter (fun g => decide (f < g))).map (fun g => (f, g)))

/-- productstate.py:316-318: diagonal blocks. -/
def setDiag (norb : List Nat) (fr : Nat → FragDm K) (dm : Ten K) (f : Nat) : Ten K := fun p q r s =>
  if ins norb f p && ins norb f q && ins norb f r && ins norb f s then
    (fr f).D (p - lo norb f) (q - lo norb f) (r - lo norb f) (s - lo norb f)
  else dm p q r s

/-- productstate.py:320-330: the four blocks of one pair of fragments, in the order in which they are assigned. -/
def setPair (norb : List Nat) (d1 : Bool → Mat K) (dm : Ten K) (fg : Nat × Nat) : Ten K := fun p q r s =>
  let dm1 : Mat K := fun p q => d1 false p q + d1 true p q
  let d2 : Ten K := fun p q r s => d1 false p q * d1 false r s + d1 true p q * d1 true r s
  let f := fg.1
  let g := fg.2
  if ins norb g p && ins norb f q && ins norb f r && ins norb g s then -d2 q r p s
  else if ins norb f p && ins norb g q && ins norb g r && ins norb f s then -d2 p s q r
  else if ins norb g p && ins norb g q && ins norb f r && ins norb f s then dm1 r s * dm1 p q
  else if ins norb f p && ins norb f q && ins norb g r && ins norb g s then dm1 p q * dm1 r s
  else dm p q r s

/-- productstate.py:311-331 `make_rdm2`. -/
def makeRdm2 (norb : List Nat) (fr : Nat → FragDm K) : Ten K :=
  (combinations2 norb.length).foldl (setPair norb (makeRdm1s norb fr))
    ((List.range norb.length).foldl (setDiag norb fr) (fun _ _ _ _ => 0))

/-- `np.tensordot (h1, dm1s, axes=3)`, all indices restricted to the set `S`. -/
def dot1 (S : Finset Nat) (a b : Bool → Mat K) : K :=
  ∑ σ : Bool, ∑ p ∈ S, ∑ q ∈ S, a σ p q * b σ p q

/-- `np.tensordot (h2, dm2, axes=4)`, all indices restricted to the set `S`. -/
def dot2 (S : Finset Nat) (a b : Ten K) : K :=
  ∑ p ∈ S, ∑ q ∈ S, ∑ r ∈ S, ∑ s ∈ S, a p q r s * b p q r s

/-- productstate.py:239-245 `energy_elec`; the same lines are 251-252. -/
def energyElec (norb : List Nat) (ecore : K) (h1 : Bool → Mat K) (h2 : Ten K) (fr : Nat → FragDm K) : K :=
  ecore + dot1 (Finset.range norb.sum) h1 (makeRdm1s norb fr) + 2⁻¹ * dot2 (Finset.range norb.sum) h2 (makeRdm2 norb fr)

/-- productstate.py:253-255 and 264-268: Coulomb and exchange potential of the density restricted to the index set `S`:
`v1 = tensordot (dm1s, h2, axes=2); v1 += v1[::-1]; v1 -= tensordot (dm1s, h2, axes=((1,2),(2,1)))`. Line 254 reads the
unmodified array on its right-hand side, since numpy buffers overlapping operands. -/
def vpot (S : Finset Nat) (h2 : Ten K) (dm1s : Bool → Mat K) (σ : Bool) : Mat K := fun r s =>
  ((∑ p ∈ S, ∑ q ∈ S, dm1s σ p q * h2 p q r s) + (∑ p ∈ S, ∑ q ∈ S, dm1s (!σ) p q * h2 p q r s))
    - (∑ p ∈ S, ∑ q ∈ S, dm1s σ p q * h2 r q p s)

/-- productstate.py:260-277, `h1eff[i]` as a function of global indices. -/
def h1eff (norb : List Nat) (h1 : Bool → Mat K) (h2 : Ten K) (fr : Nat → FragDm K) (i : Nat) (σ : Bool) : Mat K :=
  let dm1s := makeRdm1s norb fr
  let S := Finset.Ico (lo norb i) (hi norb i)
  fun p q => (h1 σ p q + vpot (Finset.range norb.sum) h2 dm1s σ p q) - vpot S h2 dm1s σ p q

/-- productstate.py:260-279, `h0eff[i]`. -/
def h0eff (norb : List Nat) (ecore : K) (h1 : Bool → Mat K) (h2 : Ten K) (fr : Nat → FragDm K) (i : Nat) : K :=
  let dm1s := makeRdm1s norb fr
  let dm2 := makeRdm2 norb fr
  let S := Finset.Ico (lo norb i) (hi norb i)
  let v1i := vpot S h2 dm1s
  let e := energyElec norb ecore h1 h2 fr - dot1 (Finset.range norb.sum) dm1s v1i
  e - (dot1 S (fun σ p q => h1 σ p q - v1i σ p q) dm1s + 2⁻¹ * dot2 S h2 dm2)

end Verif.PsEnergy
