import Verif.Model.HamS2
import Verif.Model.FragSpin
/-!
# Model of `HamS2Ovlp` with spin multiplicities (/repo/my_pyscf/lassi/op_o1/hams2ovlp.py, opterm.py)

The operators of a row of the excitation tables are computed once for all rows whose rootspaces belong to the same spin manifolds and
have the same differences of spin projections, from table entries that are not rotated (`highm=True`), and multiplied with factors that
depend on the projections of each of these rows.

Simplifications: those of Model/HamS2.lean and Model/FragSpin.lean. Python's `hash` of a tuple is a parameter.
-/
namespace Verif.HamSpin
open Verif.Lstdm Verif.FragTables Verif.FragSpin Verif.RdmSmult

/-- opterm.py:82-90 `OpTerm`: the elements of the array for one pair of model states, one for each component; the fragments; the list
`comp`. -/
structure OpTerm where
  arr : List ℝ
  ints : List Nat
  comp : Option (List (List Nat))

/-- An operator with `comp = None`. -/
def plain (ints : List Nat) (x : ℝ) : OpTerm := ⟨[x], ints, none⟩

/-- frag.py:217-263, 383-434 with `highm=True`: the table entries as they are. -/
noncomputable def toFragIntHigh (F : SFrag) (M : Mats ℝ) : FragInt ℝ :=
  let r := F.rootaddr
  let a := F.fragaddr
  let u := fun i j => interMap F (F.urootIdx (r i)) (F.urootIdx (r j))
  { ovlp := fun i j => ((M.ovlp (u i j).1 (u i j).2).map fun d => d (a i) (a j)).getD 0
    h := fun s i j x => ((M.h s (u i j).1 (u i j).2).map fun d => d (a i) (a j) x).getD 0
    hh := fun s i j x y => ((M.hh s (u i j).1 (u i j).2).map fun d => d (a i) (a j) x y).getD 0
    phh := fun s i j t x p q => ((M.phh s (u i j).1 (u i j).2).map fun d => d (a i) (a j) t x p q).getD 0
    sm := fun i j x y => ((M.sm (u i j).1 (u i j).2).map fun d => d (a i) (a j) x y).getD 0
    dm1 := fun i j s p q => ((M.dm1 (u i j).1 (u i j).2).map fun d => d (a i) (a j) s p q).getD 0
    dm2 := fun i j st p q x w => ((M.dm2 (u i j).1 (u i j).2).map fun d => d (a i) (a j) st p q x w).getD 0
    upper := fun i j => decide ((u i j).2 > (u i j).1) }

/-! ### The functions of the rows; `L` holds the entries that are not rotated -/

section
variable (L : Lstdm ℝ) (H : Ham ℝ)

/-- hams2ovlp.py:219-239 `_crunch_1d_`. -/
noncomputable def op1d (bra ket i : Nat) : Option (OpTerm × Option OpTerm) :=
  (L.ham1d H bra ket i).map fun v => (plain [i] v.1, v.2.map (plain [i]))

/-- hams2ovlp.py:241-265 `_crunch_2d_`. -/
noncomputable def op2d (bra ket i j : Nat) : Option (OpTerm × Option OpTerm) :=
  let ni := L.no i
  let nj := L.no j
  let dii := cs ((L.ints i).get1Dm1 bra ket)
  let djj := cs ((L.ints j).get1Dm1 bra ket)
  let h_ := H.four L.nlas j j i i
  let h_ := fun z w => ∑ a ∈ Finset.range ni, ∑ b ∈ Finset.range ni, dii 0 a b * h_ z w b a
  let ham0 := ∑ x ∈ Finset.range nj, ∑ y ∈ Finset.range nj, djj 0 x y * h_ y x
  let hs := fun x0 x1 x2 x3 => H.four L.nlas j i i j x0 x3 x2 x1 / 2
  let ex := fun s => ∑ x ∈ Finset.range nj, ∑ y ∈ Finset.range nj, djj s x y *
    (∑ a ∈ Finset.range ni, ∑ b ∈ Finset.range ni, dii s a b * hs y x b a)
  let mi := ∑ a ∈ Finset.range ni, dii 1 a a
  let mj := ∑ x ∈ Finset.range nj, djj 1 x x
  let comp := some [[0, 0], [1, 1]]
  some (⟨[ham0 - ex 0, 0 - ex 1], [i, j], comp⟩, some ⟨[0, mj * mi / 2], [i, j], comp⟩)

/-- hams2ovlp.py:267-303 `_crunch_1c_`. -/
noncomputable def op1c (bra ket i j s1 : Nat) : Option (OpTerm × Option OpTerm) :=
  (L.ham1c H bra ket i j s1).map fun v => (plain [i, j] v.1, none)

/-- hams2ovlp.py:305-337 `_crunch_1c1d_`. -/
noncomputable def op1c1d (bra ket i j k s1 : Nat) : Option (OpTerm × Option OpTerm) := do
  let ni := L.no i
  let nj := L.no j
  let nk := L.no k
  let f1 ← Signs.fermionDesShuffle (L.nelecF bra) [i, j, k] i
  let f2 ← Signs.fermionDesShuffle (L.nelecF ket) [i, j, k] j
  let fac : ℝ := ((f1 * f2 : Int) : ℝ)
  let p := (L.ints i).get1P bra ket s1
  let h := (L.ints j).get1H bra ket s1
  let dk := cs ((L.ints k).get1Dm1 bra ket)
  let dk : D1 ℝ := fun c a b => if c = 0 then dk 0 a b else dk 1 a b * (-1) ^ s1
  let h_ := fun z w => ∑ y ∈ Finset.range nj, h y * ∑ x ∈ Finset.range ni, p x * H.four L.nlas k k j i z w y x
  let ham0 := ∑ a ∈ Finset.range nk, ∑ b ∈ Finset.range nk, dk 0 a b * h_ b a
  let hT := fun x0 x1 x2 x3 => H.four L.nlas j k k i x2 x0 x1 x3
  let h_ := fun z w => ∑ y ∈ Finset.range nj, h y * ∑ x ∈ Finset.range ni, p x * hT z w y x
  let ex := fun s => ∑ a ∈ Finset.range nk, ∑ b ∈ Finset.range nk, dk s a b / 2 * h_ a b
  pure (⟨[(ham0 - ex 0) * fac, (0 - ex 1) * fac], [i, j, k], some [[0, 0, 0], [0, 0, 1]]⟩, none)

/-- hams2ovlp.py:339-367 `_crunch_1s_`. -/
noncomputable def op1s (bra ket i j : Nat) : Option (OpTerm × Option OpTerm) :=
  (L.ham1s H bra ket i j).map fun v => (plain [i, j] v.1, v.2.map (plain [i, j]))

/-- hams2ovlp.py:369-402 `_crunch_1s1c_`. -/
noncomputable def op1s1c (bra ket i j k s1 : Nat) : Option (OpTerm × Option OpTerm) :=
  (L.ham1s1c H bra ket i j k s1).map fun v => (plain [i, j, k] v.1, none)

/-- hams2ovlp.py:437, 440, 450, 458: `ints_ij` and `comp_ij` of component `c` (which are `ints_ab`, `comp_ab` for the other two
fragments, 437, 445, 451, 459); `weird` is the condition of 454. -/
def comp2c (i j : Nat) (weird : Bool) (c : Nat) : List Nat × List Nat :=
  if i = j then ([i], [if weird && c == 1 then 1 else 0]) else ([i, j], [0, 0])

/-- hams2ovlp.py:404-492 `_crunch_2c_`; `i j k l` are the arguments `a i b j` of the code. -/
noncomputable def op2c (bra ket i j k l s2lt : Nat) : Option (OpTerm × Option OpTerm) := do
  let s2 := [0, 1, 3].getD s2lt 0
  let s11 := s2 / 2
  let s12 := s2 % 2
  let f1 ← L.facHh ket i j k l
  let f2 ← L.facPp bra i j k l
  let fac : ℝ := (if (i, j, s11) = (k, l, s12) then 1 / 2 else 1) * ((f1 * f2 : Int) : ℝ)
  let hj := fun z w x y => H.four L.nlas l k j i z y w x
  let hk := fun z w x y => H.four L.nlas l i j k z x w y
  let contract := L.contract2c bra ket i j k l s2lt s11 s12
  let ints := (comp2c j l true 0).1 ++ (comp2c i k true 0).1
  if s11 ≠ s12 ∧ (i = k ∨ j = l) then
    let fac := fac * (1 / 2)
    pure (⟨[contract (fun z w x y => hj z w x y + hk z w x y) * fac, contract (fun z w x y => hj z w x y - hk z w x y) * fac],
      ints, some [(comp2c j l true 0).2 ++ (comp2c i k true 0).2, (comp2c j l true 1).2 ++ (comp2c i k true 1).2]⟩, none)
  else if s11 = s12 ∧ i ≠ k ∧ j ≠ l then
    pure (plain ints (contract (fun z w x y => hj z w x y - hk z w x y) * fac), none)
  else pure (plain ints (contract hj * fac), none)

/-- hams2ovlp.py:165-170: the function called for a row. -/
noncomputable def opRow (bra ket : Nat) : Lstdm.Row → Option (OpTerm × Option OpTerm)
  | .d1 i => op1d L H bra ket i
  | .d2 i j => op2d L H bra ket i j
  | .c1 i j s => op1c L H bra ket i j s
  | .c1d1 i j k s => op1c1d L H bra ket i j k s
  | .s1 i j => op1s L H bra ket i j
  | .s1c1 i j k s => op1s1c L H bra ket i j k s
  | .c2 i j k l s => op2c L H bra ket i j k l s

end

/-- The data of the class: orbitals of the fragments, number of rootspaces, the fragment objects with their tables, and Python's
`hash` of a tuple of integers. -/
structure SpinKern where
  nlas : List Nat
  nroots : Nat
  frag : Nat → SFrag
  mats : Nat → Mats ℝ
  hash : List Nat → Int

namespace SpinKern
variable (k : SpinKern)

/-- The fragment object with the unique rootspaces and local roots instead of the model states as indices (the pair is one number). -/
def byPos (F : SFrag) : SFrag := { F with rootaddr := fun p => F.addr p.unpair.1, fragaddr := fun p => p.unpair.2 }

/-- stdm.py:84-122: `lroots`, `nelec_rf`, `urootstr` and `smult_fr` are those of the fragment objects. -/
noncomputable def toKern : Kern ℝ where
  nlas := k.nlas
  cols := (List.range k.nroots).map fun r => (List.range k.nlas.length).map fun f => (k.frag f).lroots r
  nelec := (List.range k.nroots).map fun r => (List.range k.nlas.length).map fun f => (k.frag f).nelec r
  uroot f r := (k.frag f).urootIdx r
  tabs f := toFragIntS (byPos (k.frag f)) (k.mats f)
  smult := if (List.range k.nlas.length).all (fun f => (k.frag f).allSmult) then
      some ((List.range k.nroots).map fun r => (List.range k.nlas.length).map fun f => ((k.frag f).smult r).getD 0)
    else none

/-- The model states with the table entries that are not rotated. -/
noncomputable def high : Lstdm ℝ :=
  { k.toKern.toLstdm with ints := fun f => (toFragIntHigh (byPos (k.frag f)) (k.mats f)).reindex (k.toKern.loc f) }

/-! ### opterm.py:92-108, frag.py:1181-1207: the factors -/

/-- frag.py:176-182, 1188-1195: the last lines of `spin_factor_constant`. -/
noncomputable def scaleOf (f bra ket : Nat) : Option ℝ :=
  let F := k.frag f
  let d : Int × Int := (((F.nelec bra).1 : Int) - (F.nelec ket).1, ((F.nelec bra).2 : Int) - (F.nelec ket).2)
  let sb := (F.smult bra).getD 0
  let sk := (F.smult ket).getD 0
  let m := F.spin ket
  if d = (-1, 0) then some (scaleH sb 0 sk m)
  else if d = (0, -1) then some (scaleH sb 1 sk m)
  else if d = (-2, 0) then some (scaleHh sb 0 sk m)
  else if d = (-1, -1) then some (scaleHh sb 1 sk m)
  else if d = (0, -2) then some (scaleHh sb 2 sk m)
  else if d = (-1, 1) then some (scaleSm sb sk m)
  else if d = (0, 0) then some (scaleDm sb sk m)
  else none

/-- frag.py:1181-1195 `spin_factor_constant`: calls itself once with bra and ket exchanged. -/
noncomputable def factorConstant (f bra ket : Nat) : Option ℝ :=
  let F := k.frag f
  let d : Int × Int := (((F.nelec bra).1 : Int) - (F.nelec ket).1, ((F.nelec bra).2 : Int) - (F.nelec ket).2)
  if d.1 > 0 ∨ (d.1 = 0 ∧ d.2 > 0) then k.scaleOf f ket bra else k.scaleOf f bra ket

/-- frag.py:1197-1207 `spin_factor_component`; adding `np.finfo (float).tiny` changes only the number 0. -/
noncomputable def factorComponent (f bra ket comp : Nat) : ℝ :=
  let F := k.frag f
  if F.smult bra ≠ F.smult ket ∨ comp = 0 then 1
  else
    let s2 : ℝ := ((((F.smult ket).getD 0 - 1 : Int)) : ℝ)
    ((F.spin ket : Int) : ℝ) / (if s2 = 0 then (2 : ℝ) ^ (-1022 : Int) else s2)

/-- opterm.py:92-108 `reduce_spin` -/
noncomputable def reduceSpin (o : OpTerm) (bra ket : Nat) : Option ℝ :=
  if o.ints.any (fun f => ((k.frag f).smult ket).isNone) then some o.arr.sum
  else do
    let arr := match o.comp with
      | none => o.arr.getD 0 0
      | some comp => ((o.arr.zip comp).map fun x => x.1 * ((o.ints.zip x.2).map fun y => k.factorComponent y.1 bra ket y.2).prod).sum
    let fac ← o.ints.mapM (fun f => k.factorConstant f bra ket)
    pure (arr * fac.prod)

/-! ### hams2ovlp.py:42-90: the rows that share an operator -/

/-- hams2ovlp.py:42-54 `interaction_spman_fprint`: the tuple. -/
def spmanWords (x : Kern.ExcRow) : List Nat :=
  let frags := x.2.inv.mergeSort (fun a b => decide (a ≤ b))
  let m := frags.map (fun f => interMap (k.frag f) ((k.frag f).urootIdx x.1.1) ((k.frag f).urootIdx x.1.2))
  frags ++ m.map Prod.fst ++ m.map Prod.snd

/-- hams2ovlp.py:52-54, 56-70 -/
def spmanPrint (x : Kern.ExcRow) : Int := k.hash (k.spmanWords x)

/-- hams2ovlp.py:80-86, stdm.py:434-456: the first row of every value of the hash, for the rows `tab` of one table. -/
def spmanUnique (tab : List Kern.ExcRow) : List Kern.ExcRow :=
  ((tab.map k.spmanPrint).dedup.mergeSort (fun a b => decide (a ≤ b))).filterMap (fun h => tab.find? (fun x => k.spmanPrint x == h))

/-- hams2ovlp.py:72-90: the dictionary `self.spman`, from the rows that are left after the search for equivalent ones. -/
noncomputable def spmanDict : List (((Nat × Nat) × List Nat) × List (Nat × Nat)) :=
  k.toKern.tables.flatMap (fun tab => (k.spmanUnique (k.toKern.findUniqueExc tab)).map (fun u =>
    ((u.1, u.2.inv), ((k.toKern.findUniqueExc tab).filter (fun x => k.spmanPrint x == k.spmanPrint u)).map Prod.fst)))

/-- `self.spman[key]`: the last assignment wins; `none` is a `KeyError`. -/
noncomputable def spmanGet (key : (Nat × Nat) × List Nat) : Option (List (Nat × Nat)) :=
  (k.spmanDict.reverse.find? (fun e => e.1 == key)).map Prod.snd

/-! ### hams2ovlp.py:104-127, 165-204 -/

/-- hams2ovlp.py:181-204: one pass of the loop over the model states of the rootspaces `p`; the arrays are those of the row `g`, of
which `nket` is the number of states of the ket. -/
noncomputable def putHamS (H : Ham ℝ) (g : Kern.ExcRow) (p : Nat × Nat) (nket : Nat) (cache : List ((Nat × Nat) × List (Nat × Nat × ℝ)))
    (acc : Kern.Mat ℝ × Kern.Mat ℝ) (x : (Nat × Nat) × Nat) : Option (Kern.Mat ℝ × Kern.Mat ℝ) := do
  let frs := Kern.canonical g.2.axes
  let v ← opRow k.high H (k.toKern.flatState g.1.1 frs (x.2 / nket)) (k.toKern.flatState g.1.2 frs (x.2 % nket)) g.2
  let ham ← k.reduceSpin v.1 p.1 p.2
  let idx := k.toKern.specAddr cache x.1.1 x.1.2
  match v.2 with
  | some o => do
    let s2 ← k.reduceSpin o p.1 p.2
    pure (Kern.putOp acc.1 idx ham, Kern.putOp acc.2 idx s2)
  | none => pure (Kern.putOp acc.1 idx ham, acc.2)

/-- hams2ovlp.py:181-204: the loop body of `_put_ham_s2_`, `_put_ham_s2_spincase_`. -/
noncomputable def hamCase (H : Ham ℝ) (g : Kern.ExcRow) (acc : Kern.Mat ℝ × Kern.Mat ℝ) (p : Nat × Nat) :
    Option (Kern.Mat ℝ × Kern.Mat ℝ) := do
  let imgs ← k.toKern.lookup (p, g.2.inv)
  let cache ← imgs.mapM (fun im => (k.toKern.specAddrOvlp im.1 im.2 g.2.inv).map (fun l => (im, l)))
  let braRng := k.toKern.addrRange p.1 g.2.inv
  let ketRng := k.toKern.addrRange p.2 g.2.inv
  let nket := (k.toKern.addrRange g.1.2 g.2.inv).length
  ((braRng.flatMap (fun b => ketRng.map (fun c => (b, c)))).zipIdx).foldlM (k.putHamS H g p nket cache) acc

/-- hams2ovlp.py:165-173, 181-186 `_crunch_env_`, `_put_ham_s2_`. -/
noncomputable def hamEnvS (H : Ham ℝ) (acc : Kern.Mat ℝ × Kern.Mat ℝ) (g : Kern.ExcRow) : Option (Kern.Mat ℝ × Kern.Mat ℝ) := do
  let members ← k.spmanGet (g.1, g.2.inv)
  members.foldlM (k.hamCase H g) acc

/-- hams2ovlp.py:104-127 `kernel`: Hamiltonian and spin-squared matrix. -/
noncomputable def hamKernelS (H : Ham ℝ) : Option (Kern.Mat ℝ × Kern.Mat ℝ) :=
  ((k.toKern.tables.flatMap (fun tab => k.spmanUnique (k.toKern.findUniqueExc tab))).foldlM (k.hamEnvS H)
    (fun _ _ => 0, fun _ _ => 0)).map (fun acc => (fun b c => acc.1 b c + acc.1 c b, fun b c => acc.2 b c + acc.2 c b))

end SpinKern
end Verif.HamSpin
