import Verif.Model.Lassis
import Mathlib.Algebra.Ring.Defs
/-!
# Model of the fragment basis functions of LASSIS

/repo/my_pyscf/lassi/lassis/lassis.py:913-1063 `get_fbf_idx`, `get_fbf_ovlp`, `make_fbfdm1`.

The vectors of a fragment are named by `Vec`: the reference vector, the spin flips and the two ends of the charge hops.
`len x` is `len (ci)` of the array of CI vectors of the set `x` (`none` for Python's `None`), `vec x a` the row `a` of
`ci.reshape (j-i,-1)`, and `dot` the product `np.dot (c1.conj (), c2.T)` of two rows (rows of different lengths, an error in
NumPy, do not occur where the code multiplies them: the electron numbers and the multiplicity are the same).
-/
namespace Verif.Fbf
open Verif.Spaces Verif.Lassis

/-- lassis.py:921-926 and the like: the running index, `none` takes no space. Returns the ranges and the next index. -/
def scan (i : Nat) : List (Option Nat) → List (Nat × Nat) × Nat
  | [] => ([], i)
  | o :: os =>
    let j := match o with
      | none => i
      | some k => i + k
    let r := scan j os
    ((i, j) :: r.1, r.2)

/-- lassis.py:929-944: the two nested loops over a table. -/
def scan2 (i : Nat) : List (List (Option Nat)) → List (List (Nat × Nat)) × Nat
  | [] => ([], i)
  | row :: rows =>
    let r := scan i row
    let rs := scan2 r.2 rows
    (r.1 :: rs.1, rs.2)

/-- `idx_ref`, `idx_sf`, `idx_ch[0]`, `idx_ch[1]`. -/
structure Idx where
  ref : Nat × Nat
  sf : List (Nat × Nat)
  ch0 : List (List (Nat × Nat))
  ch1 : List (List (Nat × Nat))

/-- lassis.py:913-946 `get_fbf_idx`, `n` the number of fragments. -/
def fbfIdx (len : Vec → Option Nat) (n p : Nat) : Idx :=
  let r1 := scan 1 ((List.range 2).map fun s => len (.flip p s))
  let r2 := scan2 r1.2 ((List.range n).map fun a => (List.range 4).map fun s => len (.hop p a s 0))
  let r3 := scan2 r2.2 ((List.range n).map fun j => (List.range 4).map fun s => len (.hop j p s 1))
  ⟨(0, 1), r1.1, r2.1, r3.1⟩

/-- `idx_ch[-1,-1,-1,-1]`, the number of functions (lassis.py:953, 1012). -/
def Idx.nstates (idx : Idx) : Nat := ((idx.ch1.getLastD []).getLastD (0, 0)).2

/-- The entry of the index arrays for a set of vectors. -/
def Idx.rng (idx : Idx) : Vec → Nat × Nat
  | .ref _ => idx.ref
  | .flip _ s => idx.sf.getD s (0, 0)
  | .hop i a s side => if side = 0 then (idx.ch0.getD a []).getD s (0, 0) else (idx.ch1.getD i []).getD s (0, 0)

variable {K V : Type}

/-- `m[i:j,k:l] = block`. -/
def setBlock (r c : Nat × Nat) (block m : Nat → Nat → K) : Nat → Nat → K := fun u v =>
  if (r.1 ≤ u ∧ u < r.2) ∧ (c.1 ≤ v ∧ v < c.2) then block (u - r.1) (v - c.1) else m u v

/-- lassis.py:955-983: the blocks `get_fbf_ovlp` assigns, in order. -/
def ovlpBlocks (idx : Idx) (n p : Nat) : List (Vec × Vec) :=
  [(.ref p, .ref p)] ++
  ((List.range 2).flatMap fun s => if (idx.rng (.flip p s)).2 = (idx.rng (.flip p s)).1 then [] else [(.flip p s, .flip p s)]) ++
  ((List.range n).flatMap fun a => (List.range 4).flatMap fun s1 =>
    if (idx.rng (.hop p a s1 0)).2 = (idx.rng (.hop p a s1 0)).1 then [] else
      (.hop p a s1 0, .hop p a s1 0) :: (List.range n).flatMap fun b => (List.range 4).flatMap fun s2 =>
        if (idx.rng (.hop p b s2 0)).1 = (idx.rng (.hop p b s2 0)).2 then []
        else if s1 / 2 ≠ s2 / 2 then []
        else [(.hop p a s1 0, .hop p b s2 0)]) ++
  ((List.range n).flatMap fun i => (List.range 4).flatMap fun s1 =>
    if (idx.rng (.hop i p s1 1)).2 = (idx.rng (.hop i p s1 1)).1 then [] else
      (.hop i p s1 1, .hop i p s1 1) :: (List.range n).flatMap fun j => (List.range 4).flatMap fun s2 =>
        if (idx.rng (.hop j p s2 1)).1 = (idx.rng (.hop j p s2 1)).2 then []
        else if s1 % 2 ≠ s2 % 2 then []
        else [(.hop i p s1 1, .hop j p s2 1)])

/-- lassis.py:948-984 `get_fbf_ovlp`. -/
def fbfOvlp [Zero K] (dot : V → V → K) (len : Vec → Option Nat) (vec : Vec → Nat → V) (n p : Nat) : Nat → Nat → K :=
  let idx := fbfIdx len n p
  (ovlpBlocks idx n p).foldl (fun m xy =>
    setBlock (idx.rng xy.1) (idx.rng xy.2) (fun a b => dot (vec xy.1 a) (vec xy.2 b)) m) fun _ _ => 0

/-- `m[i:j,k:l] += block`. -/
def addBlock [Add K] (r c : Nat × Nat) (block m : Nat → Nat → K) : Nat → Nat → K := fun u v =>
  if (r.1 ≤ u ∧ u < r.2) ∧ (c.1 ≤ v ∧ v < c.2) then m u v + block (u - r.1) (v - c.1) else m u v

/-- lassis.py:994-996: `nelec_rfs[ix]` and `smult_rf[ix]` are those of `jx`. -/
def sameQn (n : Nat) (a b : Space) : Bool :=
  (List.range n).all fun k => decide (a.neleca k = b.neleca k) && decide (a.nelecb k = b.nelecb k) &&
    decide (el a.smults k = el b.smults k)

/-- lassis.py:1015-1061: the blocks `make_fbfdm1` adds to, in order. -/
def dmBlocks (len : Vec → Option Nat) (n p : Nat) : List (Vec × Vec) :=
  [(.ref p, .ref p)] ++
  ((List.range 2).flatMap fun s => if (len (.flip p s)).isNone then [] else [(.flip p s, .flip p s)]) ++
  ((List.range 4).flatMap fun s => (List.range n).flatMap fun a =>
    if !((len (.hop p a s 0)).isSome && (len (.hop p a s 1)).isSome) then [] else
      (.hop p a s 0, .hop p a s 0) :: (List.range n).flatMap fun b =>
        if b = a then []
        else if !(len (.hop p b s 1)).isSome then []
        else [(.hop p a s 0, .hop p b s 0)]) ++
  ((List.range 4).flatMap fun s => (List.range n).flatMap fun i =>
    if !((len (.hop i p s 0)).isSome && (len (.hop i p s 1)).isSome) then [] else
      (.hop i p s 1, .hop i p s 1) :: (List.range n).flatMap fun j =>
        if j = i then []
        else if !(len (.hop j p s 1)).isSome then []
        else [(.hop i p s 1, .hop j p s 1)])

/-- The rootspaces whose vectors of a fragment are the given set: `get_ref_fbf_rootspaces`, `get_sf_fbf_rootspaces`,
`get_ch_fbf_rootspaces`. -/
def rootsWith (setOrder : List Nat → List Nat) (ref : Space) (roots : List Space) : Vec → List Nat
  | .ref i => getRefRootspaces ref roots i
  | .flip i s => getSfRootspaces ref roots i s
  | .hop i a s _ => getChRootspaces setOrder ref roots i a s

/-- lassis.py:986-1063 `make_fbfdm1`. `sdm ix jx` is the weighted transition density matrix of two rootspaces with the same
quantum numbers (lassis.py:997-1007, property C113), the shapes of which are taken to fit the blocks. -/
def fbfDm1 [AddMonoid K] (setOrder : List Nat → List Nat) (len : Vec → Option Nat) (ref : Space) (roots : List Space)
    (sdm : Nat → Nat → Nat → Nat → K) (p : Nat) : Nat → Nat → K :=
  let n := ref.nfrag
  let idx := fbfIdx len n p
  let mySdm := fun ix jx => if sameQn n (roots.getD ix ref) (roots.getD jx ref) then sdm ix jx else fun _ _ => 0
  (dmBlocks len n p).foldl (fun m xy =>
    ((rootsWith setOrder ref roots xy.1).flatMap fun ix => (rootsWith setOrder ref roots xy.2).map fun jx => (ix, jx)).foldl
      (fun m ij => addBlock (idx.rng xy.1) (idx.rng xy.2) (mySdm ij.1 ij.2) m) m) fun _ _ => 0

end Verif.Fbf
