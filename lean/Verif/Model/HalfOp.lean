import Verif.Model.FciRdm
import Mathlib.Algebra.Field.Basic
import Mathlib.Algebra.BigOperators.Group.Finset.Basic
/-!
# Model of operators that act on the CI vector of a fragment and change its numbers of electrons
(/repo/my_pyscf/fci/direct_halfelectron.py, /repo/my_pyscf/fci/pair_op.py, /repo/my_pyscf/lassi/op_o1/frag.py:1042-1123)

CI vectors, `link_index` and dummy orbitals are those of Model/FciRdm.lean. PySCF's contraction routines are external: they are the
fields of `Ops`, and Spec/HalfOp.lean says what is assumed of them. Two things that PySCF does with their arguments matter here and
are modelled: `ao2mo.restore (4, …)` and `lib.pack_tril` keep only the lower triangles (`pack`, `pack2`), and `absorb_h1e`.
-/
namespace Verif.HalfOp
open Verif.Dummy Verif.FciRdm

/-- Matrix elements with two and with four orbital indices. -/
abbrev M2 (K : Type) := Nat → Nat → K
abbrev M4 (K : Type) := Nat → Nat → Nat → Nat → K

/-- `direct_spin1.contract_1e`, `direct_spin1.contract_2e`, `direct_uhf.contract_1e` and `direct_uhf.contract_2e` of PySCF, after
their arguments have been packed: matrix elements, CI vector, `norb`, `nelec`, `link_index`. -/
structure Ops (K : Type) where
  c1 : M2 K → Arr K → Nat → Nat × Nat → Link → Arr K
  c2 : M4 K → Arr K → Nat → Nat × Nat → Link → Arr K
  c1u : M2 K → M2 K → Arr K → Nat → Nat × Nat → Link → Arr K
  c2u : M4 K → M4 K → M4 K → Arr K → Nat → Nat × Nat → Link → Arr K

variable {K : Type} [Field K]

/-- `lib.pack_tril` (external), read back as a symmetric matrix. -/
def pack2 (f : M2 K) : M2 K := fun p q => f (max p q) (min p q)

/-- `ao2mo.restore (4, …)` of a four-index array (external), read back with its symmetry. -/
def pack (g : M4 K) : M4 K := fun p q r u => g (max p q) (min p q) (max r u) (min r u)

/-- `direct_spin1.absorb_h1e` of PySCF (external); `nel` is the total number of electrons. Simplification: the code divides by
`nel + 1e-100`. -/
def absorbH1e (h1 : M2 K) (h2 : M4 K) (n nel : Nat) (fac : K) : M4 K :=
  let f : M2 K := fun p q => (h1 p q - (∑ i ∈ Finset.range n, h2 p i i q) * (1 / 2)) * (1 / (nel : K))
  let g : M4 K := fun p q r u => h2 p q r u + (if p = q then f r u else 0) + (if r = u then f p q else 0)
  fun p q r u => pack g p q r u * fac

/-- direct_halfelectron.py:48-50 = 82-84: `f1e[-1,:-1] = h1he; f1e += f1e.T`. -/
def halfMat (h : Nat → K) (norb : Nat) : M2 K :=
  let f : M2 K := fun p q => if p = norb ∧ q < norb then h q else 0
  fun p q => f p q + f q p

/-- direct_halfelectron.py:85-91: `f2e`. -/
def halfMat3 (h : Nat → Nat → Nat → K) (cre : Bool) (norb : Nat) : M4 K :=
  let f : M4 K := fun p q r u =>
    if cre then (if p < norb ∧ q = norb ∧ r < norb ∧ u < norb then h p r u else 0)
    else (if p < norb ∧ q < norb ∧ r = norb ∧ u < norb then h p q u else 0)
  let g : M4 K := fun p q r u => f p q r u + f q p u r
  fun p q r u => g p q r u + g r u p q

/-- direct_halfelectron.py:32-47, 51-52 and 120-137: the padded vector is handed to `op` (with the electrons and the `link_index` of the padded
space), and the dummy orbital is removed from the result; `none` when the assertion on `linkstr` fails. -/
def halfContract (op : Arr K → Nat × Nat → Link → Arr K) (cre s : Bool) (ci : Arr K) (norb : Nat) (nelec : Nat × Nat)
    (link : Option Link) : Option (Arr K) :=
  let nbra := if cre then bump nelec s else FciRdm.drop nelec s
  let nd := (nelec.1 + (cre && !s).toNat, nelec.2 + (cre && s).toNat)
  let l := unpack (norb + 1) nd link
  if linkOk l (norb + 1) nd then
    some (readOrbital (op (addOrbital ci norb nelec.1 nelec.2 (cre && !s) (cre && s)) nd l) norb nbra.1 nbra.2 (!cre && !s) (!cre && s))
  else none

/-- direct_halfelectron.py:6-52 `contract_1he`. -/
def contract1he (P : Ops K) (h : Nat → K) (cre s : Bool) (ci : Arr K) (norb : Nat) (nelec : Nat × Nat) (link : Option Link) :
    Option (Arr K) :=
  halfContract (fun c nd l => P.c1 (pack2 (halfMat h norb)) c (norb + 1) nd l) cre s ci norb nelec link

/-- direct_halfelectron.py:54-92 `absorb_h1he`. -/
def absorbH1he (h1 : Nat → K) (h3 : Nat → Nat → Nat → K) (cre s : Bool) (norb : Nat) (nelec : Nat × Nat) (fac : K) : M4 K :=
  let nd := if cre then bump nelec s else nelec
  absorbH1e (halfMat h1 norb) (halfMat3 h3 cre norb) (norb + 1) (nd.1 + nd.2) fac

/-- direct_halfelectron.py:94-137 `contract_3he`. -/
def contract3he (P : Ops K) (h : M4 K) (cre s : Bool) (ci : Arr K) (norb : Nat) (nelec : Nat × Nat) (link : Option Link) :
    Option (Arr K) :=
  halfContract (fun c nd l => P.c2 (pack h) c (norb + 1) nd l) cre s ci norb nelec link

/-- pair_op.py:24-28: `hdum[:-ndum,-1,:-ndum,-ndum] = op; hdum += hdum.transpose (1,0,3,2)`. -/
def pairMat (op : M2 K) (norb ndum : Nat) : M4 K :=
  let t : M4 K := fun p q r u => if p < norb ∧ q = norb + ndum - 1 ∧ r < norb ∧ u = norb then op p r else 0
  fun p q r u => t p q r u + t q p u r

/-- pair_op.py:14-17: `ndum` dummy orbitals added. -/
def addDummies (occA occB : Bool) (norb : Nat) : Nat → Arr K → Nat × Nat → Arr K × (Nat × Nat)
  | 0, ci, ne => (ci, ne)
  | k + 1, ci, ne =>
    addDummies occA occB (norb + 1) k (addOrbital ci norb ne.1 ne.2 occA occB) (ne.1 + occA.toNat, ne.2 + occB.toNat)

/-- pair_op.py:32-38: `ndum` dummy orbitals removed; `norb` counts them. -/
def readDummies (occA occB : Bool) (norb : Nat) : Nat → Arr K → Nat × Nat → Arr K
  | 0, ci, _ => ci
  | k + 1, ci, ne =>
    readDummies occA occB (norb - 1) k (readOrbital ci (norb - 1) (ne.1 - occA.toNat) (ne.2 - occB.toNat) occA occB)
      (ne.1 - occA.toNat, ne.2 - occB.toNat)

/-- pair_op.py:6-39 `contract_pair_op`; `spin` is 0, 1, 2 for aa, ab, bb (anything else is an index error). -/
def contractPairOp (P : Ops K) (op : M2 K) (cre : Bool) (spin : Nat) (ci : Arr K) (norb : Nat) (nelec : Nat × Nat)
    (link : Option Link) : Option (Arr K) :=
  let ndum := 2 - spin % 2
  let c := addDummies (decide (spin < 2) && cre) (decide (spin > 0) && cre) norb ndum ci nelec
  let l := unpack (norb + ndum) c.2 link
  if linkOk l (norb + ndum) c.2 then
    let op : M2 K := if cre then op else fun p q => op q p
    let op : M2 K := if spin = 1 then fun p q => op p q * (1 / 2) else op
    let z : M4 K := fun _ _ _ _ => 0
    let h := pairMat op norb ndum
    if spin < 3 then
      let hci := P.c2u (pack (if spin = 0 then h else z)) (pack (if spin = 1 then h else z)) (pack (if spin = 2 then h else z))
        c.1 (norb + ndum) c.2 l
      some (readDummies (decide (spin < 2) && !cre) (decide (spin > 0) && !cre) (norb + ndum) ndum hci c.2)
    else none
  else none

/-- frag.py:1042-1060 `contract_h00`. The `link_index` is the one for these orbitals and electrons. -/
def contractH00 (P : Ops K) (h00 : K) (h11 : Bool → M2 K) (h22 : Option (M4 K)) (ci : Arr K) (norb : Nat) (nelec : Nat × Nat) : Arr K :=
  let l : Link := (norb, nelec.1, nelec.2)
  let hu : M2 K := fun p q => (h11 false p q - h11 true p q) / 2
  let hs : M2 K := fun p q => (h11 false p q + h11 true p q) / 2
  let hci := match h22 with
    | none => P.c1 (pack2 hs) ci norb nelec l
    | some g => P.c2 (pack (absorbH1e hs g norb (nelec.1 + nelec.2) (1 / 2))) ci norb nelec l
  let hciU := P.c1u (pack2 hu) (pack2 fun p q => -hu p q) ci norb nelec l
  fun A B => h00 * ci A B + hci A B + hciU A B

/-- frag.py:1062-1078 `contract_h10`. -/
def contractH10 (P : Ops K) (s : Bool) (h10 : Nat → K) (h21 : Option (Nat → Nat → Nat → K)) (ci : Arr K) (norb : Nat)
    (nelec : Nat × Nat) : Option (Arr K) :=
  let nb := bump nelec s
  let l : Option Link := some (norb + 1, nb.1, nb.2)
  match h21 with
  | none => contract1he P h10 true s ci norb nelec l
  | some h => contract3he P (absorbH1he h10 h true s norb nelec (1 / 2)) true s ci norb nelec l

/-- frag.py:1080-1094 `contract_h01`. -/
def contractH01 (P : Ops K) (s : Bool) (h01 : Nat → K) (h12 : Option (Nat → Nat → Nat → K)) (ci : Arr K) (norb : Nat)
    (nelec : Nat × Nat) : Option (Arr K) :=
  let l : Option Link := some (norb + 1, nelec.1, nelec.2)
  match h12 with
  | none => contract1he P h01 false s ci norb nelec l
  | some h => contract3he P (absorbH1he h01 h false s norb nelec (1 / 2)) false s ci norb nelec l

/-- frag.py:1096-1110 `contract_h20`. -/
def contractH20 (P : Ops K) (spin : Nat) (h20 : M2 K) (ci : Arr K) (norb : Nat) (nelec : Nat × Nat) : Option (Arr K) :=
  let nd := bump (bump nelec (decide (spin > 1))) (decide (spin > 0))
  contractPairOp P h20 true spin ci norb nelec (some (norb + 2 - (decide (spin = 1)).toNat, nd.1, nd.2))

/-- frag.py:1112-1123 `contract_h02`. -/
def contractH02 (P : Ops K) (spin : Nat) (h02 : M2 K) (ci : Arr K) (norb : Nat) (nelec : Nat × Nat) : Option (Arr K) :=
  contractPairOp P h02 false spin ci norb nelec (some (norb + 2 - (decide (spin = 1)).toNat, nelec.1, nelec.2))

end Verif.HalfOp
