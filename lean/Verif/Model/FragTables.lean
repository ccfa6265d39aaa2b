import Verif.Model.FciRdm
import Verif.Model.Lstdm
import Verif.Model.UniqueRoots
import Mathlib.Algebra.BigOperators.Group.Finset.Basic
/-!
# Model of the tables of fragment matrix elements (/repo/my_pyscf/lassi/op_o1/frag.py)

`FragTDMInt._make_dms_` fills, for all pairs of unique rootspaces of one fragment, the tables that LASSI's factorized algorithm
contracts; `update_ci_` recomputes those that involve given rootspaces. Modelled for rootspaces without spin multiplicities (`smult_r`
is None: then `spman` is `arange`, every pair of unique rootspaces is its own representative and `get_highm_civecs_*` return their
arguments) and without `mask_ints`, `do_pt_order` and GPU. CI vectors are real. `linkstr_cache` returns the arrays built for the given
numbers.
-/
namespace Verif.FragTables
open Verif.FciRdm

/-- The PySCF routines, with `direct_spin1.trans_rdm12s (cibra, ciket, norb, nelec, link_index)`: `(dm1a, dm1b)` and
`(dm2aa, dm2ab, dm2ba, dm2bb)`. -/
structure Ext (K : Type) extends Fci K where
  rdm12s : Arr K → Arr K → Nat → Nat × Nat → Link → (Nat → Nat → Nat → K) × (Nat → Nat → Nat → Nat → Nat → K)

/-- The attributes of `FragTDMInt` that are used: `ci[i][a]` (rootspace, local root), `lroots i = ci[i].shape[0]`, `nelec_r`,
`root_unique`, `unique_root`, `rootaddr`, `fragaddr`. -/
structure Frag (K : Type) where
  norb : Nat
  nroots : Nat
  nelec : Nat → Nat × Nat
  lroots : Nat → Nat
  ci : Nat → Nat → Arr K
  unique : Nat → Bool
  rep : Nat → Nat
  rootaddr : Nat → Nat
  fragaddr : Nat → Nat

/-- A table indexed by pairs of unique rootspaces; `none` is `None`. -/
abbrev Tab (X : Type) := Nat → Nat → Option X

/-- frag.py:543-550 `mats`. Blocks are indexed by local roots first. -/
structure Mats (K : Type) where
  ovlp : Tab (Nat → Nat → K)
  h : Nat → Tab (Nat → Nat → Nat → K)
  hh : Nat → Tab (Nat → Nat → Nat → Nat → K)
  phh : Nat → Tab (Nat → Nat → Nat → Nat → Nat → Nat → K)
  sm : Tab (Nat → Nat → Nat → Nat → K)
  dm1 : Tab (Nat → Nat → Nat → Nat → Nat → K)
  dm2 : Tab (Nat → Nat → Nat → Nat → Nat → Nat → Nat → K)

/-- frag.py:543-550: all `None`. -/
def Mats.empty (K : Type) : Mats K :=
  ⟨fun _ _ => none, fun _ _ _ => none, fun _ _ _ => none, fun _ _ _ => none, fun _ _ => none, fun _ _ => none, fun _ _ => none⟩

/-- `tab[i][j] = x`. -/
def put {X : Type} (T : Tab X) (i j : Nat) (x : X) : Tab X := fun a b => if a = i ∧ b = j then some x else T a b

/-- `mats[tag][s][i][j] = x`. -/
def putS {X : Type} (T : Nat → Tab X) (s i j : Nat) (x : X) : Nat → Tab X := fun t => if t = s then put (T t) i j x else T t

variable {K : Type} [CommRing K] [DecidableEq K]

namespace Frag
variable (F : Frag K)

/-- frag.py:484 `uroot_addr = np.where (root_unique)[0]`. -/
def urootAddr : List Nat := (List.range F.nroots).filter F.unique

/-- frag.py:480 `nuroots`. -/
def nuroots : Nat := F.urootAddr.length

/-- frag.py:481-483 `uroot_idx`: `uroot_inv[root_unique] = arange`, `uroot_idx = uroot_inv[unique_root]`. -/
def urootIdx (i : Nat) : Nat := F.urootAddr.idxOf (F.rep i)

/-- The rootspace of a unique rootspace. -/
def addr (u : Nat) : Nat := F.urootAddr.getD u 0

/-- frag.py:520-521 `hopping_index[:,b,k]`: electrons of the bra minus electrons of the ket. -/
def hop (b k : Nat) : Int × Int :=
  (((F.nelec (F.addr b)).1 : Int) - (F.nelec (F.addr k)).1, ((F.nelec (F.addr b)).2 : Int) - (F.nelec (F.addr k)).2)

end Frag

/-- frag.py:441-452 `unmasked_int` without mask and perturbation order. -/
def unmasked (screen : Option (List Nat)) (i j : Nat) : Bool :=
  match screen with
  | none => true
  | some l => l.contains i || l.contains j

/-- `for i, j in product (range (nb), range (nk)): out[i,j] = f (i,j)` in an array of zeros `z`; `none` if any call fails. -/
def loop2 {X : Type} (nb nk : Nat) (z : X) (f : Nat → Nat → Option X) : Option (Nat → Nat → X) :=
  if (List.range nb).all (fun i => (List.range nk).all fun j => (f i j).isSome) then
    some fun i j => if i < nb ∧ j < nk then (f i j).getD z else z
  else none

/-- frag.py:777-779: `np.dot (ci_i.conj (), ci_j.T)` with the two string axes flattened. -/
def dotCi (F : Frag K) (i j : Nat) : Nat → Nat → K := fun a b =>
  if a < F.lroots i ∧ b < F.lroots j then
    ∑ A ∈ Finset.range (F.norb.choose (F.nelec i).1), ∑ B ∈ Finset.range (F.norb.choose (F.nelec i).2), F.ci i a A B * F.ci j b A B
  else 0

/-- frag.py:772-780, one pair of unique rootspaces. -/
def ovlpStep (F : Frag K) (screen : Option (List Nat)) (T : Tab (Nat → Nat → K)) (x : Nat × Nat) : Tab (Nat → Nat → K) :=
  if F.nelec x.1 ≠ F.nelec x.2 then T
  else if !unmasked screen x.1 x.2 then T
  else
    let k := F.urootIdx x.1
    let l := F.urootIdx x.2
    put (put T k l (dotCi F x.1 x.2)) l k (fun a b => dotCi F x.1 x.2 b a)

/-- frag.py:781-785, one unique rootspace. -/
def ovlpDiag (F : Frag K) (screen : Option (List Nat)) (T : Tab (Nat → Nat → K)) (i : Nat) : Tab (Nat → Nat → K) :=
  if !unmasked screen i i then T else put T (F.urootIdx i) (F.urootIdx i) (dotCi F i i)

/-- `combinations (l, 2)`. -/
def pairs (l : List Nat) : List (Nat × Nat) := (UniqueRoots.combinations2 l.length).map fun x => (l.getD x.1 0, l.getD x.2 0)

/-- frag.py:770-785: the overlap matrices. -/
def makeOvlp (F : Frag K) (screen : Option (List Nat)) (T : Tab (Nat → Nat → K)) : Tab (Nat → Nat → K) :=
  F.urootAddr.foldl (ovlpDiag F screen) ((pairs F.urootAddr).foldl (ovlpStep F screen) T)

/-- frag.py:797-816 `trans_rdm12s_loop` with 630-664 `_trans_rdm12s_loop`: `tdm1s[i,j] = stack (d1s).transpose (0,2,1)`,
`tdm2s[i,j] = stack (d2s)`. -/
def rdm12sLoop (P : Ext K) (F : Frag K) (bra ket : Nat) :
    (Nat → Nat → Nat → Nat → Nat → K) × (Nat → Nat → Nat → Nat → Nat → Nat → Nat → K) :=
  let e := F.nelec ket
  let d := fun i j => P.rdm12s (F.ci bra i) (F.ci ket j) F.norb e (F.norb, e.1, e.2)
  (fun i j s p q => if i < F.lroots bra ∧ j < F.lroots ket then (d i j).1 s q p else 0,
    fun i j st p q r u => if i < F.lroots bra ∧ j < F.lroots ket then (d i j).2 st p q r u else 0)

/-- frag.py:818-835 `trans_rdm13h_loop` with 666-700 `_trans_rdm13h_loop`: `tdm1h[i,j]`, `tdm3h[i,j] = stack ((tdm3ha, tdm3hb))`. -/
def rdm13hLoop (P : Ext K) (F : Frag K) (bra ket : Nat) (s : Bool) :
    Option ((Nat → Nat → Nat → K) × (Nat → Nat → Nat → Nat → Nat → Nat → K)) :=
  let e := F.nelec ket
  let z : (Nat → K) × (Nat → Nat → Nat → K) × (Nat → Nat → Nat → K) := (fun _ => 0, fun _ _ _ => 0, fun _ _ _ => 0)
  (loop2 (F.lroots bra) (F.lroots ket) z fun i j =>
    transRdm13hs P.toFci false (F.ci bra i) (F.ci ket j) F.norb e s (some (F.norb + 1, e.1, e.2))).map fun d =>
      (fun i j r => (d i j).1 r, fun i j t r p q => if t = 0 then (d i j).2.1 r p q else (d i j).2.2 r p q)

/-- frag.py:839-848 `trans_sfddm_loop` with 702-729. -/
def sfddmLoop (P : Ext K) (F : Frag K) (bra ket : Nat) : Option (Nat → Nat → Nat → Nat → K) :=
  let e := F.nelec ket
  loop2 (F.lroots bra) (F.lroots ket) (fun _ _ => 0) fun i j =>
    transSfddm1 P.toFci (F.ci bra i) (F.ci ket j) F.norb e (some (F.norb + 1, e.1, e.2 + 1))

/-- frag.py:850-861 `trans_hhdm_loop` with 731-757. -/
def hhdmLoop (P : Ext K) (F : Frag K) (bra ket spin : Nat) : Option (Nat → Nat → Nat → Nat → K) :=
  let e := F.nelec ket
  let ndum := 2 - spin % 2
  loop2 (F.lroots bra) (F.lroots ket) (fun _ _ => 0) fun i j =>
    transHhdm P.toFci (F.ci bra i) (F.ci ket j) F.norb e spin (some (F.norb + ndum, e.1, e.2))

/-- frag.py:398-402, 430-434 `set_dm1`, `set_dm2` for one pair of unique rootspaces, frag.py:867-874. -/
def dmStep (P : Ext K) (F : Frag K) (screen : Option (List Nat)) (M : Mats K) (x : Nat × Nat) : Option (Mats K) :=
  let k := F.addr x.1
  let l := F.addr x.2
  if !unmasked screen k l then some M
  else if l ≤ k then
    let d := rdm12sLoop P F k l
    some { M with dm1 := put M.dm1 (F.urootIdx k) (F.urootIdx l) d.1, dm2 := put M.dm2 (F.urootIdx k) (F.urootIdx l) d.2 }
  else none

/-- frag.py:864-866 `spectator_index`: pairs with the same numbers of electrons in the lower triangle, row by row. -/
def spectators (F : Frag K) : List (Nat × Nat) :=
  (List.range F.nuroots).flatMap fun i =>
    ((List.range F.nuroots).filter fun j => F.hop i j = (0, 0) && !decide (i < j)).map fun j => (i, j)

/-- frag.py:891-892, 921-922: `err = phh[:,:,s] + phh[:,:,s].transpose (0,1,4,3,2)` must be below 1e-8; here it must be zero. -/
def antisym (nb nk norb s : Nat) (phh : Nat → Nat → Nat → Nat → Nat → Nat → K) : Bool :=
  (List.range nb).all fun i => (List.range nk).all fun j => (List.range norb).all fun r => (List.range norb).all fun p =>
    (List.range norb).all fun q => phh i j s r p q + phh i j s q p r = 0

/-- frag.py:887-895, 917-925: `h`, `phh` of one pair. -/
def setHalf (P : Ext K) (F : Frag K) (M : Mats K) (bra ket : Nat) (s : Bool) : Option (Mats K) :=
  (rdm13hLoop P F bra ket s).bind fun d =>
    if antisym (F.lroots bra) (F.lroots ket) F.norb s.toNat d.2 then
      some { M with h := putS M.h s.toNat (F.urootIdx bra) (F.urootIdx ket) d.1,
                    phh := putS M.phh s.toNat (F.urootIdx bra) (F.urootIdx ket) d.2 }
    else none

/-- frag.py:897-909, 927-930: `hh` of one pair. -/
def setHh (P : Ext K) (F : Frag K) (M : Mats K) (bra ket spin : Nat) : Option (Mats K) :=
  (hhdmLoop P F bra ket spin).map fun d => { M with hh := putS M.hh spin (F.urootIdx bra) (F.urootIdx ket) d }

/-- frag.py:882-909: one pair `(b, k)` of the loop over spin-up annihilation. -/
def upStep (P : Ext K) (F : Frag K) (screen : Option (List Nat)) (M : Mats K) (x : Nat × Nat) : Option (Mats K) :=
  let bra := F.addr x.1
  let ket := F.addr x.2
  if !unmasked screen bra ket then some M
  else if F.hop x.1 x.2 = (-1, 0) then setHalf P F M bra ket false
  else if F.hop x.1 x.2 = (-1, 1) then
    (sfddmLoop P F bra ket).map fun d => { M with sm := put M.sm (F.urootIdx bra) (F.urootIdx ket) d }
  else if F.hop x.1 x.2 = (-1, -1) then setHh P F M bra ket 1
  else if F.hop x.1 x.2 = (-2, 0) then setHh P F M bra ket 0
  else some M

/-- frag.py:912-930: one pair of the loop over spin-down annihilation. -/
def downStep (P : Ext K) (F : Frag K) (screen : Option (List Nat)) (M : Mats K) (x : Nat × Nat) : Option (Mats K) :=
  let bra := F.addr x.1
  let ket := F.addr x.2
  if !unmasked screen bra ket then some M
  else if F.hop x.1 x.2 = (0, -1) then setHalf P F M bra ket true
  else if F.hop x.1 x.2 = (0, -2) then setHh P F M bra ket 2
  else some M

/-- frag.py:877-882: pairs `(b, k)` whose bra has fewer spin-up electrons, ket by ket. -/
def upPairs (F : Frag K) : List (Nat × Nat) :=
  ((List.range F.nuroots).filter fun k => (List.range F.nuroots).any fun b => decide ((F.hop b k).1 < 0)).flatMap fun k =>
    ((List.range F.nuroots).filter fun b => decide ((F.hop b k).1 < 0)).map fun b => (b, k)

/-- frag.py:878, 911-912: the same for spin down. -/
def downPairs (F : Frag K) : List (Nat × Nat) :=
  ((List.range F.nuroots).filter fun k => (List.range F.nuroots).any fun b => decide ((F.hop b k).2 < 0)).flatMap fun k =>
    ((List.range F.nuroots).filter fun b => decide ((F.hop b k).2 < 0)).map fun b => (b, k)

/-- frag.py:759-932 `_make_dms_`; `none` when an assertion fails. -/
def makeDms (P : Ext K) (F : Frag K) (screen : Option (List Nat)) (M : Mats K) : Option (Mats K) :=
  ((spectators F).foldlM (dmStep P F screen) { M with ovlp := makeOvlp F screen M.ovlp }).bind fun M1 =>
    ((upPairs F).foldlM (upStep P F screen) M1).bind fun M2 => (downPairs F).foldlM (downStep P F screen) M2

/-- frag.py:623-628 `update_ci_`: new vectors (and numbers of local roots) of the rootspaces in `iroot`; the assertion requires
them to be unique rootspaces. -/
def updateCi (P : Ext K) (F : Frag K) (M : Mats K) (iroot : List Nat) (new : List (Nat × (Nat → Arr K))) : Option (Frag K × Mats K) :=
  let step := fun (G : Frag K) (x : Nat × (Nat × (Nat → Arr K))) =>
    if G.unique x.1 then
      some { G with lroots := Function.update G.lroots x.1 x.2.1, ci := Function.update G.ci x.1 x.2.2 }
    else none
  ((iroot.zip new).foldlM step F).bind fun G => (makeDms P G (some iroot) M).map fun M' => (G, M')

/-- frag.py:206-252 `try_get_1` and the accessors `get_1_*` of the model states: rows of `rootaddr`, `fragaddr`. -/
def toFragInt (F : Frag K) (M : Mats K) : Lstdm.FragInt K :=
  let u := fun st => F.urootIdx (F.rootaddr st)
  let a := F.fragaddr
  { ovlp := fun i j => ((M.ovlp (u i) (u j)).map fun d => d (a i) (a j)).getD 0
    h := fun s i j x => ((M.h s (u i) (u j)).map fun d => d (a i) (a j) x).getD 0
    hh := fun s i j x y => ((M.hh s (u i) (u j)).map fun d => d (a i) (a j) x y).getD 0
    phh := fun s i j t r p q => ((M.phh s (u i) (u j)).map fun d => d (a i) (a j) t r p q).getD 0
    sm := fun i j x y => ((M.sm (u i) (u j)).map fun d => d (a i) (a j) x y).getD 0
    dm1 := fun i j s p q => ((M.dm1 (u i) (u j)).map fun d => d (a i) (a j) s p q).getD 0
    dm2 := fun i j st p q r w => ((M.dm2 (u i) (u j)).map fun d => d (a i) (a j) st p q r w).getD 0
    upper := fun i j => decide (u i < u j) }

end Verif.FragTables
