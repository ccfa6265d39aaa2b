import Verif.Model.FragTables
import Verif.Model.RdmSmult
/-!
# Model of the tables of fragment matrix elements with spin multiplicities (/repo/my_pyscf/lassi/op_o1/frag.py)

When the spin multiplicities of the rootspaces are given, rootspaces that differ only by a rotation of the spin z-axis form a manifold
(`_get_unique_roots_with_spin`, /repo/my_pyscf/lassi/citools.py:281-321). `_make_dms_` fills the tables for one pair of rootspaces of
every two manifolds and every difference of the spin projections, after rotating the two to high projections (Model/RdmSmult), and the
accessors rotate the result to the projections that are asked for. As in Model/FragTables without `mask_ints`, `do_pt_order` and GPU;
CI vectors are real and floating-point numbers are real numbers.
-/
namespace Verif.FragSpin
open Verif.FciRdm Verif.FragTables Verif.Fockspace Verif.RdmSmult

/-- The attributes of `FragTDMInt`: those of Model/FragTables, `smult_r`, `discriminator` (`None` is a constant) and `spman`. -/
structure SFrag extends Frag ℝ where
  smult : Nat → Option ℤ
  disc : Nat → Nat
  spman : Nat → Nat

/-- The string of a set of occupied orbitals. -/
def mask (a : Finset Nat) : Nat := ∑ p ∈ a, 2 ^ p

/-- The set of occupied orbitals of a string. -/
def orbs (n A : Nat) : Finset Nat := (Finset.range n).filter fun p => A.testBit p = true

/-- A CI array in the representation of Model/SpinOp: a function of the sets of occupied orbitals instead of addresses of strings. -/
def toSets (n : Nat) (e : Nat × Nat) (c : Arr ℝ) : SpinOp.Vec := fun a b =>
  if mask a ∈ strs n e.1 ∧ mask b ∈ strs n e.2 then c ((strs n e.1).idxOf (mask a)) ((strs n e.2).idxOf (mask b)) else 0

/-- A vector in the representation of Model/SpinOp as a CI array for `e` electrons. -/
def ofSets (n : Nat) (e : Nat × Nat) (v : SpinOp.Vec) : Arr ℝ := fun i j =>
  v (orbs n ((strs n e.1).getD i 0)) (orbs n ((strs n e.2).getD j 0))

namespace SFrag
variable (F : SFrag)

/-- The vector of local root `a` of rootspace `i`. -/
def vecS (i a : Nat) : SpinOp.Vec := toSets F.norb (F.nelec i) (F.ci i a)

/-- `nelec_r[i][0] - nelec_r[i][1]`. -/
def spin (i : Nat) : ℤ := (F.nelec i).1 - (F.nelec i).2

/-- frag.py:487: `all ([smult is not None for smult in self.smult_r])`. -/
def allSmult : Bool := (List.range F.nroots).all fun i => (F.smult i).isSome

end SFrag

/-! ### citools.py:281-321 `_get_unique_roots_with_spin` for the unique rootspaces (frag.py:486-496) -/

/-- citools.py:292-298: `mup` of local root `a` of unique rootspace `u`. -/
noncomputable def highest (F : SFrag) (u a : Nat) : SpinOp.Vec :=
  SpinOp.mup F.norb (F.nelec (F.addr u)).1 (F.nelec (F.addr u)).2 ((F.smult (F.addr u)).getD 0) (F.vecS (F.addr u) a)

/-- citools.py:315: `np.dot` of two rotated vectors. -/
noncomputable def dotS (norb : Nat) (v w : SpinOp.Vec) : ℝ :=
  ∑ a ∈ (Finset.range norb).powerset, ∑ b ∈ (Finset.range norb).powerset, v a b * w a b

/-- citools.py:301-308 `exclude` -/
def exclude0 (F : SFrag) (u w : Nat) : Bool :=
  let i := F.addr u
  let j := F.addr w
  if u = w then true
  else if (F.nelec i).1 + (F.nelec i).2 ≠ (F.nelec j).1 + (F.nelec j).2 then true
  else if F.smult i ≠ F.smult j then true
  else if F.lroots i ≠ F.lroots j then true
  else if F.disc i ≠ F.disc j then true
  else F.spin i == F.spin j

/-- citools.py:309-310 with `exclude`. -/
structure Man where
  unique : Nat → Bool
  root : Nat → Nat
  excl : Nat → Nat → Bool

/-- citools.py:319-320: `exclude[i,:] = exclude[j,:] = exclude[:,i] = exclude[:,j] = new_row`, assigned from left to right. -/
def mergeRows (e : Nat → Nat → Bool) (i j : Nat) : Nat → Nat → Bool :=
  let row := fun a => e i a || e j a
  fun a b => if b = j then row a else if b = i then row a else if a = j then row b else if a = i then row b else e a b

open Classical in
/-- citools.py:312-320, one pair. `np.allclose (ovlp, 1.0)` is equality with 1. -/
noncomputable def manStep (F : SFrag) (s : Man) (x : Nat × Nat) : Man :=
  if s.excl x.1 x.2 then s
  else if !s.unique x.1 then s
  else if !s.unique x.2 then s
  else if ∀ l < F.lroots (F.addr x.1), dotS F.norb (highest F x.1 l) (highest F x.2 l) = 1 then
    { unique := Function.update s.unique x.2 false, root := Function.update s.root x.2 x.1, excl := mergeRows s.excl x.1 x.2 }
  else s

/-- frag.py:486-496: `spman`. -/
noncomputable def manifolds (F : SFrag) : Nat → Nat :=
  if F.allSmult then
    ((UniqueRoots.combinations2 F.nuroots).foldl (manStep F) ⟨fun _ => true, fun u => u, exclude0 F⟩).root
  else fun u => u

/-! ### frag.py:498-517: one pair of rootspaces for every two manifolds and difference of spins -/

/-- frag.py:501-505 `key` -/
def interKey (F : SFrag) (x : Nat × Nat) : Nat × Nat × ℤ := (F.spman x.1, F.spman x.2, F.spin (F.addr x.1) - F.spin (F.addr x.2))

/-- `product (range (n), repeat=2)` -/
def product2 (n : Nat) : List (Nat × Nat) := (List.range n).flatMap fun i => (List.range n).map fun j => (i, j)

/-- frag.py:498-507 the dictionary `spman_inter`. -/
def inter (F : SFrag) : Nat × Nat × ℤ → Option (Nat × Nat) :=
  (product2 F.nuroots).foldl (fun D x => Function.update D (interKey F x) (some x)) fun _ => none

/-- frag.py:511-512 `p, q = spman_inter[key]`; the key is always there. -/
def interRep (F : SFrag) (i j : Nat) : Nat × Nat := (inter F (interKey F (i, j))).getD (0, 0)

/-- frag.py:510-517 `spman_inter_uroot_map[i,j]`; for `i = j` the second assignment (515) is the one that stays. -/
def interMap (F : SFrag) (i j : Nat) : Nat × Nat := if i < j then interRep F i j else ((interRep F j i).2, (interRep F j i).1)

/-- frag.py:510-517 `spman_inter_uniq[p,q]`. -/
def interUniq (F : SFrag) (p q : Nat) : Bool :=
  (product2 F.nuroots).any fun x => decide (x.1 ≤ x.2) && (interRep F x.1 x.2 == (p, q) || interRep F x.1 x.2 == (q, p))

/-! ### frag.py:759-932 `_make_dms_` -/

/-- frag.py:798-804, 820-826, 840-846, 851-857 `get_highm_civecs_*` for local roots `a`, `b` of rootspaces `i`, `j`; `d` is the change of
the numbers of electrons. -/
noncomputable def highm (F : SFrag) (d : ℤ × ℤ) (i j a b : Nat) : SpinOp.Vec × SpinOp.Vec × (Nat × Nat) :=
  getHighmCivecs (F.vecS i a) (F.vecS j b) F.norb (F.nelec j) d (F.smult i) (F.smult j)

/-- The numbers of electrons of the rotated ket and bra. They do not depend on the vectors. -/
noncomputable def highmKet (F : SFrag) (d : ℤ × ℤ) (i j : Nat) : Nat × Nat := (highm F d i j 0 0).2.2

/-- See `highmKet`. -/
noncomputable def highmBra (F : SFrag) (d : ℤ × ℤ) (i j : Nat) : Nat × Nat :=
  (((highmKet F d i j).1 + d.1).toNat, ((highmKet F d i j).2 + d.2).toNat)

/-- The rotated arrays `bravecs`, `ketvecs` and `nelec` as an object with two rootspaces, 0 the bra and 1 the ket: the arguments of the
loops `_trans_*_loop` of Model/FragTables. -/
noncomputable def duo (F : SFrag) (d : ℤ × ℤ) (i j : Nat) : Frag ℝ where
  norb := F.norb
  nroots := 2
  nelec x := if x = 0 then highmBra F d i j else highmKet F d i j
  lroots x := if x = 0 then F.lroots i else F.lroots j
  ci x a := if x = 0 then ofSets F.norb (highmBra F d i j) (highm F d i j a 0).1
    else ofSets F.norb (highmKet F d i j) (highm F d i j 0 a).2.1
  unique _ := true
  rep x := x
  rootaddr x := x
  fragaddr _ := 0

/-- frag.py:772-780, one pair of unique rootspaces. -/
noncomputable def ovlpStepS (F : SFrag) (screen : Option (List Nat)) (T : Tab (Nat → Nat → ℝ)) (x : Nat × Nat) : Tab (Nat → Nat → ℝ) :=
  if F.nelec x.1 ≠ F.nelec x.2 then T
  else if !unmasked screen x.1 x.2 then T
  else
    let k := F.urootIdx x.1
    let l := F.urootIdx x.2
    if !(interUniq F k l || interUniq F l k) then T
    else put (put T k l (dotCi F.toFrag x.1 x.2)) l k (fun a b => dotCi F.toFrag x.1 x.2 b a)

/-- frag.py:770-785: the overlap matrices. -/
noncomputable def makeOvlpS (F : SFrag) (screen : Option (List Nat)) (T : Tab (Nat → Nat → ℝ)) : Tab (Nat → Nat → ℝ) :=
  F.urootAddr.foldl (ovlpDiag F.toFrag screen) ((pairs F.urootAddr).foldl (ovlpStepS F screen) T)

/-- frag.py:867-874, one pair. -/
noncomputable def dmStepS (P : Ext ℝ) (F : SFrag) (screen : Option (List Nat)) (M : Mats ℝ) (x : Nat × Nat) : Option (Mats ℝ) :=
  if !interUniq F x.1 x.2 then some M
  else
    let k := F.addr x.1
    let l := F.addr x.2
    if !unmasked screen k l then some M
    else if l ≤ k then
      let d := rdm12sLoop P (duo F dnelecDm k l) 0 1
      some { M with dm1 := put M.dm1 (F.urootIdx k) (F.urootIdx l) d.1, dm2 := put M.dm2 (F.urootIdx k) (F.urootIdx l) d.2 }
    else none

/-- frag.py:887-895, 917-925: `h`, `phh` of one pair. -/
noncomputable def setHalfS (P : Ext ℝ) (F : SFrag) (M : Mats ℝ) (bra ket : Nat) (s : Bool) : Option (Mats ℝ) :=
  (rdm13hLoop P (duo F (dnelecH s.toNat) bra ket) 0 1 s).bind fun d =>
    if antisym (F.lroots bra) (F.lroots ket) F.norb s.toNat d.2 then
      some { M with h := putS M.h s.toNat (F.urootIdx bra) (F.urootIdx ket) d.1,
                    phh := putS M.phh s.toNat (F.urootIdx bra) (F.urootIdx ket) d.2 }
    else none

/-- frag.py:897-900: `sm` of one pair. -/
noncomputable def setSmS (P : Ext ℝ) (F : SFrag) (M : Mats ℝ) (bra ket : Nat) : Option (Mats ℝ) :=
  (sfddmLoop P (duo F dnelecSm bra ket) 0 1).map fun d => { M with sm := put M.sm (F.urootIdx bra) (F.urootIdx ket) d }

/-- frag.py:901-909, 927-930: `hh` of one pair. -/
noncomputable def setHhS (P : Ext ℝ) (F : SFrag) (M : Mats ℝ) (bra ket spin : Nat) : Option (Mats ℝ) :=
  (hhdmLoop P (duo F (dnelecHh spin) bra ket) 0 1 spin).map fun d =>
    { M with hh := putS M.hh spin (F.urootIdx bra) (F.urootIdx ket) d }

/-- frag.py:881-909: one pair `(b, k)` of the loop over spin-up annihilation. -/
noncomputable def upStepS (P : Ext ℝ) (F : SFrag) (screen : Option (List Nat)) (M : Mats ℝ) (x : Nat × Nat) : Option (Mats ℝ) :=
  if !interUniq F x.1 x.2 then some M
  else
    let bra := F.addr x.1
    let ket := F.addr x.2
    if !unmasked screen bra ket then some M
    else if F.hop x.1 x.2 = (-1, 0) then setHalfS P F M bra ket false
    else if F.hop x.1 x.2 = (-1, 1) then setSmS P F M bra ket
    else if F.hop x.1 x.2 = (-1, -1) then setHhS P F M bra ket 1
    else if F.hop x.1 x.2 = (-2, 0) then setHhS P F M bra ket 0
    else some M

/-- frag.py:911-930: one pair of the loop over spin-down annihilation. -/
noncomputable def downStepS (P : Ext ℝ) (F : SFrag) (screen : Option (List Nat)) (M : Mats ℝ) (x : Nat × Nat) : Option (Mats ℝ) :=
  if !interUniq F x.1 x.2 then some M
  else
    let bra := F.addr x.1
    let ket := F.addr x.2
    if !unmasked screen bra ket then some M
    else if F.hop x.1 x.2 = (0, -1) then setHalfS P F M bra ket true
    else if F.hop x.1 x.2 = (0, -2) then setHhS P F M bra ket 2
    else some M

/-- frag.py:759-932 `_make_dms_`; `none` when an assertion fails. -/
noncomputable def makeDmsS (P : Ext ℝ) (F : SFrag) (screen : Option (List Nat)) (M : Mats ℝ) : Option (Mats ℝ) :=
  ((spectators F.toFrag).foldlM (dmStepS P F screen) { M with ovlp := makeOvlpS F screen M.ovlp }).bind fun M1 =>
    ((upPairs F.toFrag).foldlM (upStepS P F screen) M1).bind fun M2 => (downPairs F.toFrag).foldlM (downStepS P F screen) M2

/-- frag.py:454-553 `_init_crunch_` after the search for unique rootspaces: `spman` and the tables. -/
noncomputable def initCrunch (P : Ext ℝ) (F : SFrag) : Option (SFrag × Mats ℝ) :=
  let G := { F with spman := manifolds F }
  (makeDmsS P G none (Mats.empty ℝ)).map fun M => (G, M)

/-- frag.py:623-628 `update_ci_`: as in Model/FragTables. `spman` and the maps made from it are not computed again. -/
noncomputable def updateCiS (P : Ext ℝ) (F : SFrag) (M : Mats ℝ) (iroot : List Nat) (new : List (Nat × (Nat → Arr ℝ))) :
    Option (SFrag × Mats ℝ) :=
  let step := fun (G : SFrag) (x : Nat × (Nat × (Nat → Arr ℝ))) =>
    if G.unique x.1 then
      some { G with lroots := Function.update G.lroots x.1 x.2.1, ci := Function.update G.ci x.1 x.2.2 }
    else none
  ((iroot.zip new).foldlM step F).bind fun G => (makeDmsS P G (some iroot) M).map fun M' => (G, M')

/-! ### frag.py:206-263, 383-434: the accessors -/

/-- frag.py:233-236, 254-257: the table entry is rotated unless a multiplicity is `None`. -/
def rotated {X : Type} (si sj : Option ℤ) (t : X) (f : ℤ → ℤ → X) : X :=
  match si, sj with
  | some a, some b => f a b
  | _, _ => t

/-- frag.py:206-263 `try_get_1`, `try_get_dm`, `try_get_tdm` and the accessors `get_1_*`: `i`, `j` are model states; `mdown_tdm['ovlp']` is
the identity. `upper` is the condition of 387, 403, 416, 425 for exchanging the indices. -/
noncomputable def toFragIntS (F : SFrag) (M : Mats ℝ) : Lstdm.FragInt ℝ :=
  let r := F.rootaddr
  let a := F.fragaddr
  let u := fun i j => interMap F (F.urootIdx (r i)) (F.urootIdx (r j))
  let si := fun i => F.smult (r i)
  let m := fun j => F.spin (r j)
  { ovlp := fun i j => ((M.ovlp (u i j).1 (u i j).2).map fun d => d (a i) (a j)).getD 0
    h := fun s i j x => ((M.h s (u i j).1 (u i j).2).map fun d =>
      rotated (si i) (si j) (d (a i) (a j)) (fun sb sk => mdownH (d (a i) (a j)) sb s sk (m j)) x).getD 0
    hh := fun s i j x y => ((M.hh s (u i j).1 (u i j).2).map fun d =>
      rotated (si i) (si j) (d (a i) (a j)) (fun sb sk => mdownHh (d (a i) (a j)) sb s sk (m j)) x y).getD 0
    phh := fun s i j t x p q => ((M.phh s (u i j).1 (u i j).2).map fun d =>
      rotated (si i) (si j) (d (a i) (a j)) (fun sb sk => mdownPhh (d (a i) (a j)) sb s sk (m j)) t x p q).getD 0
    sm := fun i j x y => ((M.sm (u i j).1 (u i j).2).map fun d =>
      rotated (si i) (si j) (d (a i) (a j)) (fun sb sk => mdownSm (d (a i) (a j)) sb sk (m j)) x y).getD 0
    dm1 := fun i j s p q => ((M.dm1 (u i j).1 (u i j).2).map fun d =>
      rotated (si i) (si j) (d (a i) (a j)) (fun sb sk => mdownDm1 (d (a i) (a j)) sb sk (m j)) s p q).getD 0
    dm2 := fun i j st p q x w => ((M.dm2 (u i j).1 (u i j).2).map fun d =>
      rotated (si i) (si j) (d (a i) (a j)) (fun sb sk => mdownDm2 (d (a i) (a j)) sb sk (m j)) st p q x w).getD 0
    upper := fun i j => decide ((u i j).2 > (u i j).1) }

end Verif.FragSpin
