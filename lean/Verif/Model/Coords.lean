import Mathlib.Algebra.BigOperators.Group.Finset.Basic
import Mathlib.Algebra.Field.Defs
/-!
# Model of the LASSIS coordinates (/repo/my_pyscf/lassi/lassis/coords.py)

Simplifications: everything is expressed in the bases the coordinates live in, so the maps between determinants and
configuration state functions (`CSFTransformer`, external) and between raw and orthonormal product states (`raw2orth`) are
left out, and numbers are real, so complex conjugation is left out. Arrays are functions of their indices; an array of shape
`(nr, nc)` matters only at indices below its shape.
-/
namespace Verif.Coords
open Finset

/-- A set of `nr` CI vectors with `nc` coefficients each. -/
structure Blk (K : Type) where
  nr : Nat
  nc : Nat
  c0 : Nat → Nat → K

/-- The reference point (coords.py:14-84). `uniq`: the index pairs of `uniq_orb_idx` in row-major order. `ref`: reference CI
vectors, one per fragment. `sf`: spin-flip vectors, in the order `(i, s)`. `ch`: charge-hop vectors of the two fragments, in
the order `(i, a, s)`. `None` stands for absent vectors. -/
structure Ugg (K : Type) where
  uniq : List (Nat × Nat)
  ref : List (Blk K)
  sf : List (Option (Blk K))
  ch : List (Option (Blk K) × Option (Blk K))
  north : Nat
  nrootsSi : Nat
  si0 : Nat → Nat → K

variable {K : Type}

/-- One block of coordinates as the code treats it: the vectors it belongs to, and whether it is packed. -/
structure Slot (K : Type) where
  blk : Option (Blk K)
  active : Bool

def shape (b : Option (Blk K)) : Nat × Nat := match b with
  | none => (0, 0)
  | some b => (b.nr, b.nc)

/-- coords.py:90-95: the reference vectors are always packed. -/
def refSlots (u : Ugg K) : List (Slot K) := u.ref.map (fun b => ⟨some b, true⟩)

/-- coords.py:206-213 `ncsf_sf`, and the test of lines 102 and 154. -/
def sfSlots (u : Ugg K) : List (Slot K) := u.sf.map (fun b => ⟨b, b.isSome && decide ((shape b).1 < (shape b).2)⟩)

/-- coords.py:215-225 `ncsf_ch`: line 223 reads `self.ci_ch[i][a][s][0]` for both values of `p`, so both entries hold the
shape of the first fragment's vectors. Tests of lines 114, 121, 171 and 180. -/
def chSlots (u : Ugg K) : List (Slot K) := u.ch.flatMap (fun (b, c) =>
  [⟨b, b.isSome && decide ((shape b).1 < (shape b).2)⟩, ⟨c, c.isSome && decide ((shape b).1 < (shape b).2)⟩])

def slots (u : Ugg K) : List (Slot K) := refSlots u ++ sfSlots u ++ chSlots u

/-- coords.py:227-230 `sum_ncsf`. -/
def sumNcsf (l : List (Nat × Nat)) : Nat := (l.map (fun p => if p.1 = p.2 then 0 else p.1 * p.2)).sum

/-- coords.py:236-252: `nvar_csf_sf`, `nvar_csf_ch`, `nvar_si`, `nvar_tot`. -/
def nvarTot (u : Ugg K) : Nat :=
  u.uniq.length + (u.ref.map (·.nc)).sum + sumNcsf (u.sf.map shape) + sumNcsf (u.ch.flatMap (fun (b, _) => [shape b, shape b])) +
    (u.nrootsSi * (u.nrootsSi - 1) / 2 + u.north * u.nrootsSi)

/-- The full set of coordinates: orbital rotation, change of every block of vectors (in the order of `slots`), change of the
SI vectors. -/
structure X (K : Type) where
  kappa : Nat → Nat → K
  ci : List (Nat → Nat → K)
  si : Nat → Nat → K

/-- `a.ravel ()` for an array of shape `(nr, nc)`. -/
def ravel (nr nc : Nat) (a : Nat → Nat → K) : List K := (List.range (nr * nc)).map (fun k => a (k / nc) (k % nc))

/-- `y.reshape (nr, nc)`. -/
def reshape [Zero K] (nc : Nat) (y : List K) : Nat → Nat → K := fun r c => y.getD (r * nc + c) 0

/-- coords.py:94, 104, 116, 123: `c1 -= np.dot (np.dot (c1, c0.conj ().T), c0)`. -/
def projOut [Field K] (b : Blk K) (c1 : Nat → Nat → K) (r c : Nat) : K :=
  c1 r c - ∑ q ∈ range b.nr, (∑ k ∈ range b.nc, c1 r k * b.c0 q k) * b.c0 q c

/-- `np.tril_indices (n, k=-1)`. -/
def tril (n : Nat) : List (Nat × Nat) := (List.range n).flatMap (fun r => (List.range r).map (fun c => (r, c)))

/-- `a[idx]` for a list of index pairs. -/
def gather (idx : List (Nat × Nat)) (a : Nat → Nat → K) : List K := idx.map (fun p => a p.1 p.2)

/-- `a = zeros; a[idx] = y`. -/
def scatter [Zero K] (idx : List (Nat × Nat)) (y : List K) : Nat → Nat → K :=
  fun r c => if (r, c) ∈ idx then y.getD (idx.idxOf (r, c)) 0 else 0

/-- coords.py:127: `z = self.si.conj ().T @ si`. -/
def zOf [Field K] (u : Ugg K) (si : Nat → Nat → K) (r c : Nat) : K := ∑ p ∈ range u.north, u.si0 p r * si p c

/-- coords.py:86-133 `pack`. -/
def pack [Field K] (u : Ugg K) (x : X K) : List K :=
  gather u.uniq (fun p q => (x.kappa p q - x.kappa q p) / 2) ++
  ((slots u).zip x.ci).flatMap (fun (s, c) => match s.blk with
    | some b => if s.active then ravel b.nr b.nc (projOut b c) else []
    | none => []) ++
  (if u.nrootsSi > 1 then gather (tril u.nrootsSi) (fun r c => zOf u x.si r c - zOf u x.si c r) else []) ++
  ravel u.north u.nrootsSi (fun p r => x.si p r - ∑ q ∈ range u.nrootsSi, u.si0 p q * zOf u x.si q r)

/-- coords.py:139-187: reads the blocks off the front of `y`; blocks that are not packed become zero. Also returns what is
left of `y`. -/
def unpackCi [Zero K] : List (Slot K) → List K → List (Nat → Nat → K) × List K
  | [], y => ([], y)
  | s :: ss, y => match s.blk with
    | some b => if s.active then
        let r := unpackCi ss (y.drop (b.nr * b.nc))
        (reshape b.nc (y.take (b.nr * b.nc)) :: r.1, r.2)
      else
        let r := unpackCi ss y
        ((fun _ _ => 0) :: r.1, r.2)
    | none =>
        let r := unpackCi ss y
        ((fun _ _ => 0) :: r.1, r.2)

/-- coords.py:135-200 `unpack`. -/
def unpack [Field K] (u : Ugg K) (y : List K) : X K :=
  let k0 := scatter u.uniq (y.take u.uniq.length)
  let r := unpackCi (slots u) (y.drop u.uniq.length)
  let nz := u.nrootsSi * (u.nrootsSi - 1) / 2
  let z0 := scatter (tril u.nrootsSi) (r.2.take nz)
  let y2 := if nz ≠ 0 then r.2.drop nz else r.2
  { kappa := fun p q => k0 p q - k0 q p
    ci := r.1
    si := fun p r' => (if nz ≠ 0 then ∑ q ∈ range u.nrootsSi, u.si0 p q * ((z0 q r' - z0 r' q) / 2) else 0) +
      reshape u.nrootsSi y2 p r' }

end Verif.Coords
