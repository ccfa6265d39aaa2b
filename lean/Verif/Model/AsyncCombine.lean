import Verif.Model.SymBlocks
import Mathlib.Algebra.Order.Group.Defs
import Mathlib.Algebra.Field.Defs
import Mathlib.Algebra.BigOperators.Group.List.Defs
import Mathlib.Data.Nat.Log
import Mathlib.Data.List.Dedup
/-!
# Model of keyframe recombination (/repo/my_pyscf/mcscf/lasscf_async/combine.py and lasscf_async.py)

Not modelled: Löwdin orthogonalization, the SVD alignment, the QR construction of the non-active space and the
diagonalization in `orth_orb`; the optimization inside `combine_pair`.
-/
namespace Verif.AsyncCombine
open Verif.SymBlocks

/-- A keyframe (keyframe.py:6-14): the orbitals as columns `mo p`, the CI vectors `ci f` of each fragment, the set of
fragments it is responsible for (a Python set: the list is some iteration order), the density matrix and the potential. -/
structure Kf (V C M : Type) where
  mo : Nat → V
  ci : Nat → C
  frags : List Nat
  dm1s : M
  veff : M

section
variable {V C M : Type}

/-- combine.py:27-31: body of the inner loop. `mo_cas[:,i:j] = kf2.mo_coeff[:,k:l]; ci[ifrag] = kf2.ci[ifrag]`. -/
def assignFrag (ncore : Nat) (ncasSub : List Nat) (kf : Kf V C M) (acc : (Nat → V) × (Nat → C)) (f : Nat) :
    (Nat → V) × (Nat → C) :=
  let i := (ncasSub.take f).sum
  let j := i + ncasSub.getD f 0
  (fun p => if i ≤ p ∧ p < j then kf.mo (p + ncore) else acc.1 p, fun g => if g = f then kf.ci f else acc.2 g)

/-- combine.py:19-31: `mo_cas` (before orthonormalization) and `ci`. Without a reference keyframe the start values are
uninitialized memory and `None`; `start` stands for whatever they are. -/
def merge (ncore : Nat) (ncasSub : List Nat) (kfs : List (Kf V C M)) (start : (Nat → V) × (Nat → C)) :
    (Nat → V) × (Nat → C) :=
  kfs.foldl (fun acc kf => kf.frags.foldl (assignFrag ncore ncasSub kf) acc) start

/-- combine.py:19-24 with a reference keyframe: `kf_ref.mo_coeff[:,ncore:nocc].copy ()` and `[c for c in kf_ref.ci]`. -/
def startRef (ncore : Nat) (ref : Kf V C M) : (Nat → V) × (Nat → C) := (fun p => ref.mo (p + ncore), ref.ci)

/-- combine.py:72: `sum ([kf2.veff for kf2 in kf2_list]) / len (kf2_list)`. -/
def meanVeff [Field M] (kfs : List (Kf V C M)) : M := (kfs.map (·.veff)).sum / (kfs.length : M)

/-- combine.py:73: `sum ([kf2.dm1s for dm1s in kf2_list]) / len (kf2_list)`. The comprehension variable is `dm1s`, so `kf2`
is the function's own variable, left at the last keyframe by the loop of line 25. -/
def meanDm1s [Field M] (kfs : List (Kf V C M)) : Option M :=
  kfs.getLast?.map (fun kf2 => (kfs.map (fun _ => kf2.dm1s)).sum / (kfs.length : M))

end

section
variable {K : Type} [LinearOrder K] [AddCommGroup K]

/-- `np.argmax`: the first position of a largest entry; `none` (ValueError) for an empty list. -/
def argmax : List K → Option Nat
  | [] => none
  | x :: xs => match argmax xs with
    | none => some 0
    | some k => if xs.getD k 0 ≤ x then some 0 else some (k + 1)

/-- combine.py:181-245 `select_aa_block`. `g i j` is `linalg.norm (g_orb[i-block,j-block])`, `gx k i j` is the norm of the
`k` rows against the columns of `i` and `j`. `argsort` is `np.argsort`. The result is a set, given as a list of its
elements, possibly with repetitions. -/
def selectAA (argsort : List K → List Nat) (g : Nat → Nat → K) (gx : Nat → Nat → Nat → K) (frags1 frags2 : List Nat)
    (maxFrags : Nat) : Option (List Nat) :=
  let gblk := frags1.flatMap (fun i => frags2.map (fun j => g i j))
  match argmax gblk with
  | none => none
  | some gmax =>
    match frags1[gmax / frags2.length]?, frags2[gmax % frags2.length]? with
    | some i, some j =>
      let all := (frags1 ++ frags2).mergeSort (fun a b => decide (a ≤ b))
      let mx := min all.length maxFrags
      if mx < 3 then some [i, j]
      else
        let rest := (all.erase i).erase j
        let idx := argsort (rest.map (fun k => -gx k i j))
        some ([i, j] ++ (idx.filterMap (fun k => rest[k]?)).take (mx - 2))
    | _, _ => none

end

/-- combine.py:198-199: `max_frags`, else the attribute `combine_pair_max_frags`, else `nfrags`. -/
def maxFragsOf (arg attr : Option Nat) (nfrags : Nat) : Nat := (arg.orElse (fun _ => attr)).getD nfrags

/-- What the tournament needs to know of a keyframe: the fragments it is responsible for, and for each fragment of the
molecule whether its orbitals and CI vectors descend from the update of that fragment in this macrocycle. -/
structure Node where
  frags : List Nat
  fresh : Nat → Bool

section
variable {K : Type} [LinearOrder K] [AddCommGroup K]

/-- combine.py:247-267 `combine_pair`, on provenance. Line 251: keyframes responsible for the same fragment are rejected.
Line 255: `orth_orb` takes the fragments of the second, then the first, and the rest from the reference keyframe, which
holds no update of this macrocycle. Line 266 with crunch.py:457-459: the result copies that keyframe, and its `frags` are
the selected ones. `grad` gives the gradient norms of the merged keyframe. -/
def combinePair (argsort : List K → List Nat) (grad : Node → (Nat → Nat → K) × (Nat → Nat → Nat → K)) (maxFrags : Nat)
    (a b : Node) : Except String Node :=
  if a.frags.any (fun f => decide (f ∈ b.frags)) then .error "Cannot combine keyframes"
  else
    let fresh := fun f => if f ∈ b.frags then b.fresh f else if f ∈ a.frags then a.fresh f else false
    let kf3 : Node := ⟨[], fresh⟩
    match selectAA argsort (grad kf3).1 (grad kf3).2 a.frags b.frags maxFrags with
    | none => .error "ValueError"
    | some aa => .ok ⟨aa.dedup, fresh⟩

/-- lasscf_async.py:87-89: `for kf2, kf3 in zip (kf2_list[::2],kf2_list[1::2])`. -/
def pairs {α : Type} (comb : α → α → Except String α) : List α → Except String (List α)
  | a :: b :: l => do return (← comb a b) :: (← pairs comb l)
  | _ => .ok []

/-- lasscf_async.py:85-92: one round. The odd one out is inserted before the last element. -/
def round {α : Type} (comb : α → α → Except String α) (l : List α) : Except String (List α) := do
  let l3 ← pairs comb l
  if l.length % 2 = 1 then
    match l.getLast? with
    | some x => return l3.insertIdx (l3.length - 1) x
    | none => return l3
  else return l3

/-- lasscf_async.py:82-94: `ceil (log2 (nkf))` rounds, then `assert (len (kf2_list) == 1)`. `Nat.clog 2` is the rounded
logarithm; no keyframes at all fails when the infinite logarithm is converted to an integer. -/
def rounds {α : Type} (comb : α → α → Except String α) : Nat → List α → Except String (List α)
  | 0, l => .ok l
  | k + 1, l => do rounds comb k (← round comb l)

def tournament {α : Type} (comb : α → α → Except String α) (l : List α) : Except String α := do
  if l = [] then .error "OverflowError"
  else
    match ← rounds comb (Nat.clog 2 l.length) l with
    | [x] => return x
    | _ => .error "AssertionError"

end

/-- lasscf_async.py:72-76 with crunch.py:459: after the impurity calculations there is one keyframe per fragment,
responsible for that fragment. -/
def impurity (f : Nat) : Node := ⟨[f], fun g => g == f⟩

end Verif.AsyncCombine
