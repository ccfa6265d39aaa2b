import Verif.Model.Dummy
/-!
# Model of the half-particle, spin-flip and pair transition density matrices (/repo/my_pyscf/fci/rdm.py)

The functions pad the CI vectors with dummy orbitals and read blocks of ordinary transition density matrices. The CPU paths
(`_o0`) are modelled; the GPU paths (`_o1` … `_o6`) call code outside Python and are not. CI vectors are real, so `conj` is the
identity. A CI vector is a function of the two string addresses. A `link_index` is represented by the numbers of orbitals and
electrons for which it was built, from which its shape follows. The PySCF routines `make_rdm1_spin1`, `make_rdm12_spin1` are
external: they are the fields of `Fci`, and the theorems state what is assumed of them.
-/
namespace Verif.FciRdm
open Verif.Dummy

/-- A CI vector by string addresses. -/
abbrev Arr (K : Type) := Nat → Nat → K

/-- `link_index`: number of orbitals, spin-up electrons, spin-down electrons. -/
abbrev Link := Nat × Nat × Nat

/-- The names of the kernels passed to `make_rdm12_spin1`: `FCItdm12kern_a`, `FCItdm12kern_b`, `FCItdm12kern_ab`. -/
inductive Fn | a | b | ab
deriving DecidableEq, Repr

/-- The PySCF routines: `make_rdm1_spin1 (fname, cibra, ciket, norb, nelec, link_index)` with `fname` = `FCItrans_rdm1a` (`false`)
or `FCItrans_rdm1b` (`true`); `make_rdm12_spin1 (fname, cibra, ciket, norb, nelec, link_index, symm)`. -/
structure Fci (K : Type) where
  rdm1 : Bool → Arr K → Arr K → Nat → Nat × Nat → Link → Nat → Nat → K
  rdm12 : Fn → Arr K → Arr K → Nat → Nat × Nat → Link → Nat → (Nat → Nat → K) × (Nat → Nat → Nat → Nat → K)

variable {K : Type} [CommRing K]

/-- `pyscf.fci.rdm.reorder_rdm (rdm1, rdm2)[1]` (external): `for k: rdm2[:,k,k,:] -= rdm1.T`. -/
def reorder (d : (Nat → Nat → K) × (Nat → Nat → Nat → Nat → K)) : Nat → Nat → Nat → Nat → K := fun p q r u =>
  if q = r then d.2 p q r u - d.1 u p else d.2 p q r u

/-- `linkstr[i].shape[1]` of `cistring.gen_linkstr_index` (external) for `k` electrons in `n` orbitals. -/
def width (n k : Nat) : Nat := k * (n - k) + k

/-- `nelec[spin] += 1`. -/
def bump (n : Nat × Nat) (s : Bool) : Nat × Nat := if s then (n.1, n.2 + 1) else (n.1 + 1, n.2)

/-- `nelec[spin] -= 1`. -/
def drop (n : Nat × Nat) (s : Bool) : Nat × Nat := if s then (n.1, n.2 - 1) else (n.1 - 1, n.2)

/-- rdm.py:12-20 `_unpack`. -/
def unpack (norb : Nat) (nelec : Nat × Nat) (link : Option Link) : Link := link.getD (norb, nelec.1, nelec.2)

/-- The assertion on the shape of `linkstr`, `linkstr[i].shape[1] == nelec[i]*(norb-nelec[i]+1)` for both spins, where `norb` counts
the dummy orbitals (rdm.py:92, 227, 410 with `norb+1`; 540-541 with `norb+ndum`). -/
def linkOk (l : Link) (norb : Nat) (n : Nat × Nat) : Bool :=
  ((width l.1 l.2.1 : Nat) : Int) == n.1 * ((norb : Int) - n.1 + 1) && ((width l.1 l.2.2 : Nat) : Int) == n.2 * ((norb : Int) - n.2 + 1)

/-- The padded vectors of the half-particle functions, rdm.py:82-94 = 217-229: `(cibra, ciket, nelec_bra, linkstr)` of the
creation sector; `none` when the assertion fails. -/
def halfSetup (cre : Bool) (cibra ciket : Arr K) (norb : Nat) (nelec : Nat × Nat) (s : Bool) (link : Option Link) :
    Option (Arr K × Arr K × (Nat × Nat) × Link) :=
  let bra := if cre then cibra else ciket
  let ket := if cre then ciket else cibra
  let nket := if cre then nelec else drop nelec s
  let nbra := bump nket s
  let l := unpack (norb + 1) nbra link
  if linkOk l (norb + 1) nbra then
    some (addOrbital bra norb nbra.1 nbra.2 false false, addOrbital ket norb nket.1 nket.2 (!s) s, nbra, l)
  else none

/-- rdm.py:22-97 `_trans_rdm1hs` (CPU path): row of the dummy orbital, without its last entry. -/
def transRdm1hs (P : Fci K) (cre : Bool) (cibra ciket : Arr K) (norb : Nat) (nelec : Nat × Nat) (s : Bool) (link : Option Link) :
    Option (Nat → K) :=
  (halfSetup cre cibra ciket norb nelec s link).map fun x =>
    let t := P.rdm1 s x.1 x.2.1 (norb + 1) x.2.2.1 x.2.2.2
    fun p => t norb p

/-- rdm.py:230-241: the two-electron arrays `(tdm3ha, tdm3hb)` of `norb + 1` orbitals, and the one-electron array. -/
def tdm3Full (P : Fci K) (s doReorder : Bool) (x : Arr K × Arr K × (Nat × Nat) × Link) (norb : Nat) :
    (Nat → Nat → K) × (Nat → Nat → Nat → Nat → K) × (Nat → Nat → Nat → Nat → K) :=
  let par := P.rdm12 (if s then Fn.b else Fn.a) x.1 x.2.1 (norb + 1) x.2.2.1 x.2.2.2 2
  let par2 := if doReorder then reorder par else par.2
  if s then
    let ab := (P.rdm12 Fn.ab x.2.1 x.1 (norb + 1) x.2.2.1 x.2.2.2 0).2
    (par.1, fun p q r u => ab u r q p, par2)
  else
    (par.1, par2, (P.rdm12 Fn.ab x.1 x.2.1 (norb + 1) x.2.2.1 x.2.2.2 0).2)

/-- rdm.py:216-250 `_trans_rdm13hs_o0`: `(tdm1h, tdm3ha, tdm3hb)`. -/
def transRdm13hs (P : Fci K) (cre : Bool) (cibra ciket : Arr K) (norb : Nat) (nelec : Nat × Nat) (s : Bool) (link : Option Link)
    (doReorder : Bool := true) : Option ((Nat → K) × (Nat → Nat → Nat → K) × (Nat → Nat → Nat → K)) :=
  (halfSetup cre cibra ciket norb nelec s link).map fun x =>
    let t := tdm3Full P s doReorder x norb
    let cut := fun (d : Nat → Nat → Nat → Nat → K) (r p q : Nat) => if cre then d r norb p q else d r norb q p
    (fun p => t.1 norb p, cut t.2.1, cut t.2.2)

/-- rdm.py:401-415 `_trans_sfudm1_o0` (`trans_sfudm1` on the CPU). -/
def transSfudm1 (P : Fci K) (cibra ciket : Arr K) (norb : Nat) (nelec : Nat × Nat) (link : Option Link) : Option (Nat → Nat → K) :=
  let nbra := drop (bump nelec false) true
  let nd := (nbra.1, nelec.2)
  let l := unpack (norb + 1) nd link
  if linkOk l (norb + 1) nd then
    let ket := addOrbital ciket norb nelec.1 nelec.2 true false
    let bra := addOrbital cibra norb nbra.1 nbra.2 false true
    let d := (P.rdm12 Fn.ab ket bra (norb + 1) nd l 0).2
    some fun p q => - d norb p q norb
  else none

/-- rdm.py:448-473 `trans_sfddm1`: the transpose of `trans_sfudm1` with exchanged vectors. -/
def transSfddm1 (P : Fci K) (cibra ciket : Arr K) (norb : Nat) (nelec : Nat × Nat) (link : Option Link) : Option (Nat → Nat → K) :=
  (transSfudm1 P ciket cibra norb (bump (drop nelec false) true) link).map fun d p q => d q p

/-- rdm.py:542-547: `ndum` dummy orbitals, occupied in the ket and empty in the bra: `(cibra, ciket)`. -/
def padPair (cibra ciket : Arr K) (norb : Nat) (nket nbra : Nat × Nat) (occA occB : Bool) (ndum : Nat) : Arr K × Arr K :=
  let step := fun (st : Arr K × Arr K × (Nat × Nat)) (i : Nat) =>
    (addOrbital st.1 (norb + i) nbra.1 nbra.2 false false,
      addOrbital st.2.1 (norb + i) st.2.2.1 st.2.2.2 occA occB, (st.2.2.1 + occA.toNat, st.2.2.2 + occB.toNat))
  let r := (List.range ndum).foldl step (cibra, ciket, nket)
  (r.1, r.2.1)

/-- rdm.py:528-552 `_trans_ppdm_o0` (`trans_ppdm` on the CPU); `spin` is 0, 1, 2 for aa, ab, bb (anything else is an index error). -/
def transPpdm (P : Fci K) (cibra ciket : Arr K) (norb : Nat) (nelec : Nat × Nat) (spin : Nat) (link : Option Link) :
    Option (Nat → Nat → K) :=
  let ndum := 2 - spin % 2
  let nbra := bump (bump nelec (decide (spin > 1))) (decide (spin > 0))
  let occA := decide (spin < 2)
  let occB := decide (spin > 0)
  let l := unpack (norb + ndum) nbra link
  if linkOk l (norb + ndum) nbra then
    let v := padPair cibra ciket norb nelec nbra occA occB ndum
    match [Fn.a, Fn.ab, Fn.b][spin]? with
    | none => none
    | some fn =>
      let d := P.rdm12 fn v.1 v.2 (norb + ndum) nbra l ([2, 0, 2].getD spin 0)
      let d2 := if spin % 2 = 0 then reorder d else d.2
      some fun p q => d2 p (norb + ndum - 1) q norb
  else none

/-- rdm.py:620-646 `trans_hhdm`: the transpose of `trans_ppdm` with exchanged vectors. -/
def transHhdm (P : Fci K) (cibra ciket : Arr K) (norb : Nat) (nelec : Nat × Nat) (spin : Nat) (link : Option Link) :
    Option (Nat → Nat → K) :=
  (transPpdm P ciket cibra norb (drop (drop nelec (decide (spin > 1))) (decide (spin > 0))) spin link).map fun d p q => d q p

end Verif.FciRdm
