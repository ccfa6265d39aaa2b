import Verif.Model.Signs
import Verif.Model.Addr
import Mathlib.Algebra.Ring.Defs
/-!
# Model of the SI-vector sign conventions (/repo/my_pyscf/lassi/sitools.py:604-685)

The SI vector is one column `si[:,k]` (the columns are independent). The table `nelec_frs` is given as the list over
rootspaces of the list over fragments of `(neleca, nelecb)`; `lroots` as the list of its columns.
-/
namespace Verif.SivecShuffle
open Verif.Signs Verif.Addr

/-- `si1[rootaddr==iroot,:] *= s`. -/
def scaleRoot {K : Type} [Mul K] (rootaddr : List Nat) (iroot : Nat) (s : K) (si : List K) : List K :=
  List.zipWith (fun r x => if r = iroot then x * s else x) rootaddr si

/-- sitools.py:632-635: the loop over rootspaces; `none` = AssertionError inside `fermion_spin_shuffle`. -/
def spinLoop {K : Type} [Ring K] (rootaddr : List Nat) :
    List (List (Nat × Nat)) → Nat → List K → Option (List K)
  | [], _, si => some si
  | nelec :: l, iroot, si =>
    match fermionSpinShuffle (nelec.map Prod.fst) (nelec.map Prod.snd) with
    | none => none
    | some s => spinLoop rootaddr l (iroot + 1) (scaleRoot rootaddr iroot (s : K) si)

/-- sitools.py:604-636 `sivec_fermion_spin_shuffle`. -/
def sivecSpinShuffle {K : Type} [Ring K] (si0 : List K) (nelec : List (List (Nat × Nat))) (nfrags : Nat)
    (lroots : List (List Nat)) : Option (List K) :=
  match getRootaddrFragaddr nfrags lroots with
  | none => none
  | some (rootaddr, _) => spinLoop rootaddr nelec 0 si0

/-- sitools.py:676-682: the number of exchanges for one rootspace; `np.remainder` of a possibly negative difference. -/
def vacPerms (nfrags : Nat) (nelecVac : List Nat) (nelecF : List Nat) : Nat :=
  let dparity := List.zipWith (fun (n v : Nat) => ((n : Int) - (v : Int)) % 2) nelecF nelecVac
  let parityVac := nelecVac.map (· % 2)
  let oddFrags := (List.range dparity.length).filter (fun f => dparity.getD f 0 ≠ 0)
  oddFrags.reverse.foldl (fun nperms ifrag =>
    if ifrag = nfrags - 1 then nperms else nperms + (parityVac.drop (ifrag + 1)).sum) 0

/-- sitools.py:676-684: the loop over rootspaces. -/
def vacLoop {K : Type} [Ring K] (rootaddr : List Nat) (nfrags : Nat) (nelecVac : List Nat) :
    List (List Nat) → Nat → List K → List K
  | [], _, si => si
  | nelecF :: l, iroot, si =>
    vacLoop rootaddr nfrags nelecVac l (iroot + 1)
      (scaleRoot rootaddr iroot (((sgnOf (vacPerms nfrags nelecVac nelecF) : Int)) : K) si)

/-- sitools.py:640-685 `sivec_vacuum_shuffle`; `none` = an assertion fails or the index `state` is out of range. -/
def sivecVacuumShuffle {K : Type} [Ring K] (si0 : List K) (nelec : List (List (Nat × Nat))) (nfrags : Nat)
    (lroots : List (List Nat)) (nelecVac : Option (List Nat)) (state : Option Nat) : Option (List K) :=
  match nelecVac, state with
  | none, none => none
  | _, _ =>
    match sivecSpinShuffle si0 nelec nfrags lroots with
    | none => none
    | some si1 =>
      let nelecRf := nelec.map (fun row => row.map (fun p => p.1 + p.2))
      match (match nelecVac with
        | some v => some v
        | none => nelecRf[state.getD 0]?) with
      | none => none
      | some vac =>
        match getRootaddrFragaddr nfrags lroots with
        | none => none
        | some (rootaddr, _) => some (vacLoop rootaddr nfrags vac nelecRf 0 si1)

end Verif.SivecShuffle
