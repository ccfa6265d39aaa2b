import Mathlib.Algebra.Order.Field.Basic
import Mathlib.Algebra.BigOperators.Group.List.Basic
/-!
# Model of the division of orbitals among fragments by occupation

/repo/my_pyscf/mcscf/lasscf_guess.py:5-27 and 86-149 (`localize_init_guess` with `mo_occ`, so that `freeze_cas_spaces` is true) with
/repo/my_pyscf/mcscf/lasci.py:840-855 and 2177-2213.

Orbitals of one occupation are mixed only among themselves, so that what matters here is the list of occupations (0, 1 or 2). The singular
values of the overlap between fragment and active orbitals are inputs; `np.argsort` is a parameter. No point-group symmetry.
-/
namespace Verif.LocalizeOcc

variable {K : Type} [Field K] [LinearOrder K]

/-- lasscf_guess.py:16-20: the rows `rngs[:,1]`, `none` if the assertion fails. -/
def spinRngs (smults : Option (List Int)) (nfrag nsomo : Nat) : Option (Nat → Int × Int) :=
  match smults with
  | none => some fun _ => (-1, -1)
  | some l =>
    if l.sum - nfrag ≤ nsomo then
      let tot := ((List.range nfrag).map fun g => l.getD g 0 - 1).sum
      let r : Nat → Int × Int := fun f => (l.getD f 0 - 1, -(l.getD f 0 - 1 - tot))
      if (List.range nfrag).all fun f => decide (0 ≤ (r f).1 ∧ 0 ≤ (r f).2) then some r else none
    else some fun _ => (-1, -1)

/-- lasscf_guess.py:21-26: the rows `rngs[:,2]`. -/
def pairRngs (nelec : Option (List Int)) (nfrag ndomo nsomo : Nat) (r1 : Nat → Int × Int) : Nat → Int × Int :=
  match nelec with
  | none => fun _ => (-1, -1)
  | some l =>
    if l.sum = 2 * (ndomo : Int) + nsomo then
      let subt : Nat → Int := if (List.range nfrag).all fun f => decide (0 ≤ (r1 f).2) then fun f => (r1 f).2 else fun _ => 0
      let lo : Nat → Int := fun f => (l.getD f 0 - subt f) / 2
      fun f => (lo f, -(lo f - ((List.range nfrag).map lo).sum))
    else fun _ => (-1, -1)

/-- lasscf_guess.py:5-27 `_get_minmax_occs`, with occupations given: `rngs[f][m]`. -/
def minmaxOccs (nfrag : Nat) (nelec smults : Option (List Int)) (occ : List Nat) : Option (Nat → Nat → Int × Int) :=
  (spinRngs smults nfrag (occ.count 1)).map fun r1 f m =>
    if m = 1 then r1 f else if m = 2 then pairRngs nelec nfrag (occ.count 2) (occ.count 1) r1 f else (-1, -1)

/-- lasci.py:847-850: the shifts. -/
def shiftBy (k : Nat) (rng : Int × Int) (sv : Nat → K) : Nat → K :=
  let s1 : Nat → K := if 0 ≤ rng.1 then fun i => if i < min k rng.1.toNat then sv i + 1 else sv i else sv
  if 0 ≤ rng.2 ∧ rng.2 < k then fun i => if rng.2.toNat ≤ i then s1 i - 1 else s1 i else s1

/-- lasci.py:840-855 `_shift_svals`: the singular values which are returned; `k` is their number. -/
def shiftSvals (argsort : Nat → (Nat → K) → Nat → Nat) (k : Nat) (rng : Int × Int) (sv : Nat → K) : Nat → K :=
  let s2 := shiftBy k rng fun i => sv (argsort k (fun i => -sv i) i)
  fun i => s2 (argsort k (fun i => -s2 i) i)

/-- lasci.py:2189-2191: number of singular values of class `m`; `nao` is the number of orbitals that define the fragment. -/
def nsv (nao : Nat) (occ : List Nat) (m : Nat) : Nat := min nao (occ.count m)

/-- lasci.py:2202: all singular values, class after class. -/
def allSv (nao : Nat) (occ : List Nat) (w : Nat → Nat → K) (i : Nat) : K :=
  if i < nsv nao occ 0 then w 0 i
  else if i < nsv nao occ 0 + nsv nao occ 1 then w 1 (i - nsv nao occ 0)
  else w 2 (i - (nsv nao occ 0 + nsv nao occ 1))

/-- lasci.py:2196, 2203: the occupation of each of them. -/
def cls (nao : Nat) (occ : List Nat) (i : Nat) : Nat :=
  if i < nsv nao occ 0 then 0 else if i < nsv nao occ 0 + nsv nao occ 1 then 1 else 2

def total (nao : Nat) (occ : List Nat) : Nat := nsv nao occ 0 + nsv nao occ 1 + nsv nao occ 2

/-- lasci.py:2201-2213: `mo_occ1`. `none`: `idx` indexes columns of `mo_lvecs` (2211), which has as many as the fragment has orbitals, so that
more singular values than these raise an IndexError. -/
def svdOcc (argsort : Nat → (Nat → K) → Nat → Nat) (nao : Nat) (occ : List Nat) (rng : Nat → Int × Int) (sv : Nat → Nat → K) :
    Option (List Nat) :=
  let w := fun m => shiftSvals argsort (nsv nao occ m) (rng m) (sv m)
  let n := total nao occ
  if nao < n then none
  else some ((List.range n).map (fun i => cls nao occ (argsort n (fun i => -allSv nao occ w i) i)) ++
    List.replicate (occ.count 0 - nsv nao occ 0) 0 ++ List.replicate (occ.count 1 - nsv nao occ 1) 1 ++
    List.replicate (occ.count 2 - nsv nao occ 2) 2)

/-- A fragment: number of active orbitals, number of orbitals that define it, singular values by occupation. -/
structure Frag (K : Type) where
  nlas : Nat
  nao : Nat
  sv : Nat → Nat → K

/-- lasscf_guess.py:127-149: the loop over fragments, from number `ix` on: the occupations of each fragment's orbitals. -/
def loop (argsort : Nat → (Nat → K) → Nat → Nat) (rngs : Nat → Nat → Int × Int) : List (Frag K) → Nat → List Nat → Option (List (List Nat))
  | [], _, _ => some []
  | F :: rest, ix, occ =>
    match svdOcc argsort F.nao occ (rngs ix) F.sv with
    | none => none
    | some l =>
      if total F.nao occ < F.nlas then none
      else (loop argsort rngs rest (ix + 1) (l.drop F.nlas)).map fun r => l.take F.nlas :: r

/-- lasscf_guess.py:86-149: the occupations of the orbitals of each fragment. -/
def localize (argsort : Nat → (Nat → K) → Nat → Nat) (frags : List (Frag K)) (nelec smults : Option (List Int)) (occ : List Nat) :
    Option (List (List Nat)) :=
  match minmaxOccs frags.length nelec smults occ with
  | none => none
  | some r => loop argsort r frags 0 occ

end Verif.LocalizeOcc
