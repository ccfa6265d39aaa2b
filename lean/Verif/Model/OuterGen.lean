import Verif.Model.Outer
/-!
# Model: all rootspaces, overlaps (my_pyscf/lassi/op_o0.py)
-/
namespace Verif.Outer
open Verif.Np Verif.Fockspace Verif.Spec

variable {K : Type}

/-- The list of `_ci_outer_product` results, one per rootspace (op_o0.py:301-310): `gen_ci_r`, `dotter_r`. `spaces` holds, for
each rootspace, the fragments (`ci_fr`, `norb_f`, `nelec_fr` of op_o0.py:257). -/
def products [Mul K] (spaces : List (List (Frag K))) : Option (List (List (Frag K) × Product K)) :=
  spaces.mapM fun fs => do
    let P ← ciOuterProduct fs
    return (fs, P)

/-- `nelec_p` (op_o0.py:306). -/
def nelecP (prods : List (List (Frag K) × Product K)) : List (Nat × Nat) :=
  prods.flatMap fun x => List.replicate x.2.nprods x.2.nelec

/-- `space_p` (op_o0.py:307). -/
def spaceP (prods : List (List (Frag K) × Product K)) : List Nat :=
  prods.zipIdx.flatMap fun x => List.replicate x.1.2.nprods x.2

/-- `list (ci_r_gen ())` (op_o0.py:311-318). -/
def genAll [Zero K] (prods : List (List (Frag K) × Product K)) : Option (List (Nat → Nat → K)) := do
  let vs ← prods.mapM fun x => (List.range x.2.nprods).mapM x.2.gen
  return vs.flatten

/-- `np.sum (np.abs (nelec_fr[:,ibra] - nelec_fr[:,iket]))` (op_o0.py:346-348). -/
def hops (bra ket : List (Frag K)) : Nat :=
  ((bra.zip ket).map fun x => ((x.1.na : Int) - x.2.na).natAbs + ((x.1.nb : Int) - x.2.nb).natAbs).sum

/-- Whether a rootspace is passed over by `dotter` (op_o0.py:341-350): different number of electrons, or too many hops from the
rootspace of the ket. `filt` is `some (iket, oporder)` if both are given. -/
def dropped (prods : List (List (Frag K) × Product K)) (spinless : Bool) (nelecKet : Nat × Nat) (filt : Option (Nat × Nat))
    (fs : List (Frag K)) (nelec : Nat × Nat) : Bool :=
  (if spinless then decide (nelec.1 + nelec.2 ≠ nelecKet.1 + nelecKet.2) else decide (nelec ≠ nelecKet)) ||
  (match filt with
    | none => false
    | some (iket, oporder) =>
      decide (hops fs ((prods[(spaceP prods).getD iket 0]?.map Prod.fst).getD []) > 2 * oporder))

/-- The part of the result of `dotter` that belongs to one rootspace (op_o0.py:350-353), with `skip=None`. -/
def dotOne {V : Type} [AddCommMonoid K] [Mul K] (prods : List (List (Frag K) × Product K))
    (conv : V → Nat × Nat → Nat → Nat → K) (spinless : Bool) (ket : V) (nelecKet : Nat × Nat) (filt : Option (Nat × Nat))
    (x : List (Frag K) × Product K) : Option (List K) :=
  if dropped prods spinless nelecKet filt x.1 x.2.nelec then some (List.replicate x.2.nprods 0)
  else do
    let r ← x.2.dotter x.1 (conv ket x.2.nelec) x.2.nelec none
    return (List.range x.2.nprods).map fun p => r.get [p]

/-- `dotter` over all rootspaces, with `skip=None` (op_o0.py:319-355). `spinless` says whether the argument `spinless2ss` is
callable, and `conv` is that function, or the one that returns the vector itself. A CI vector is a function of two addresses; a
vector in the spinless representation has type `V`. -/
def dotterAll {V : Type} [AddCommMonoid K] [Mul K] (prods : List (List (Frag K) × Product K))
    (conv : V → Nat × Nat → Nat → Nat → K) (spinless : Bool) (ket : V) (nelecKet : Nat × Nat) (filt : Option (Nat × Nat)) :
    Option (List K) := do
  let vs ← prods.mapM (dotOne prods conv spinless ket nelecKet filt)
  return vs.flatten

/-- `get_ovlp` (op_o0.py:424-434) for `rootidx=None`; selecting rootspaces only changes the list of rootspaces. -/
def getOvlp [AddCommMonoid K] [Mul K] (spaces : List (List (Frag K))) : Option (List (List K)) := do
  let prods ← products spaces
  let vs ← genAll prods
  vs.zipIdx.mapM fun x => dotterAll prods (fun v _ => v) false x.1 ((nelecP prods).getD x.2 (0, 0)) (some (x.2, 0))

end Verif.Outer
