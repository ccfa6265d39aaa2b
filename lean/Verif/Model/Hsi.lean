import Verif.Model.HamS2
import Verif.Model.Overlap
import Verif.Model.Bigdim
/-!
# Model of the matrix-free operators `HamS2OvlpOperators` (/repo/my_pyscf/lassi/op_o1/hsi.py)

Products of the Hamiltonian, the spin-squared operator and the overlap matrix with a vector, without the matrices: the operators of
the nonspectator fragments are cached, the overlaps of the spectator fragments are applied one fragment at a time to vectors which
rootspaces share, and the results are transposed back.

Simplifications: those of Model/HamS2.lean, in particular no spin multiplicities, so that `spincase_keys` of an operator is the key of
its own row. The CPU branch of `_opuniq_x_full` only. Operators below `screen_thresh` are not dropped. Real numbers: `conj` does
nothing. The transformations of the vectors for linearly equivalent rootspaces, before and after, are in Model/HsiRot.lean. The
Hamiltonian has no constant. A dictionary of vectors is a function from its keys; `none` is a missing key.
-/
namespace Verif.Lstdm
open Verif.Signs Verif.Exc Verif.Addr Verif.Np

/-- The cached operators after `reduce_spin`: `full` is `OpTermContracted`, a matrix of `nb` rows and `nk` columns stored by rows;
`four` is `OpTerm4Fragments` (opterm.py:167-183, 258-261) with `self.lroots_bra`, `self.lroots_ket`, `self.norb`, `self.op` (six indices
`r s b a j i`) and `self.d` (position, bra root, ket root, orbital). -/
inductive Term (K : Type) where
  | full (nb nk : Nat) (a : List K)
  | four (lb lk no : List Nat) (op : Nat → Nat → Nat → Nat → Nat → Nat → K) (d : Nat → Nat → Nat → Nat → K)

/-- A two-dimensional array with `lr` columns, stored by rows. -/
structure Buf (K : Type) where
  size : Nat
  lr : Nat
  dat : Nat → K

variable {K : Type} [Field K]

/-- opterm.py:162 `lib.dot` and 263-287 `OpTerm4Fragments.dot` for the argument `vec.T`; the result is raveled, with its size.
`none` is an error for shapes which do not match. -/
def Term.dot (v : Buf K) : Term K → Option (Nat × (Nat → K))
  | .full nb nk a =>
    if nk = 0 ∨ v.lr ≠ nk ∨ v.size % nk ≠ 0 then none else
      let ncol := v.size / nk
      some (nb * ncol, fun t => ∑ q ∈ Finset.range nk, a.getD (t / ncol * nk + q) 0 * v.dat (t % ncol * v.lr + q))
  | .four lb lk no op d =>
    if lk.prod = 0 ∨ v.lr ≠ lk.prod ∨ v.size % lk.prod ≠ 0 then none else
      let ncol := v.size / v.lr
      let nl := fun x => lk.getD x 0
      let other := fun z l c j i => v.dat ((((z * nl 3 + l) * nl 2 + c) * nl 1 + j) * nl 0 + i)
      let ox1 := fun r s b a z l c => ∑ j ∈ Finset.range (nl 1), ∑ i ∈ Finset.range (nl 0), op r s b a j i * other z l c j i
      let ox2 := fun s c b a z l => ∑ c' ∈ Finset.range (nl 2), ∑ r ∈ Finset.range (no.getD 2 0), d 2 c c' r * ox1 r s b a z l c'
      let ox3 := fun e c b a z => ∑ l ∈ Finset.range (nl 3), ∑ s ∈ Finset.range (no.getD 3 0), d 3 e l s * ox2 s c b a z l
      let nb := fun x => lb.getD x 0
      some (lb.prod * ncol, fun t =>
        let p := t / ncol
        ox3 (p / (nb 0 * nb 1 * nb 2)) (p / (nb 0 * nb 1) % nb 2) (p / nb 0 % nb 1) (p % nb 0) (t % ncol))

/-- hsi.py:604 `op.conj ().T`: of an array, and opterm.py:194-205, 289. -/
def Term.conjT : Term K → Term K
  | .full nb nk a => .full nk nb ((List.range (nk * nb)).map (fun t => a.getD (t % nb * nk + t / nb) 0))
  | .four lb lk no op d => .four lk lb no (fun r s j i b a => op r s b a j i) (fun x q p r => d x p q r)

/-- Values of a dictionary of lists. -/
def addGroup {α : Type} : List (List Nat × List α) → List Nat → α → List (List Nat × List α)
  | [], key, a => [(key, [a])]
  | g :: gs, key, a => if g.1 = key then (g.1, g.2 ++ [a]) :: gs else g :: addGroup gs key a

/-- hsi.py:214-232: the rows whose hash has not been seen. -/
def keepNew {α : Type} (hash : α → Int) : List Int → List α → List α
  | _, [] => []
  | seen, r :: rs => if hash r ∈ seen then keepNew hash seen rs else r :: keepNew hash (hash r :: seen) rs

namespace Kern
variable (k : Kern K)

/-- hsi.py:104-113: the rows, in the order of `_cache_`. -/
def hsiRows : List ExcRow :=
  [0, 1, 4, 2, 3, 5, 6].flatMap (fun i => k.findUniqueExc (k.tables.getD i []))

/-- stdm.py:401, 1001-1002 `_fn_contributes_to_s2`. -/
def hasS2 : Lstdm.Row → Bool
  | .d1 _ => true
  | .d2 _ _ => true
  | .s1 _ _ => true
  | _ => false

/-- `np.prod (self.lroots[inv,r])`. -/
def lrProd (r : Nat) (inv : List Nat) : Nat := (inv.map (fun f => (k.cols.getD r []).getD f 0)).prod

/-- hsi.py:156-166 `opterm_std_shape` for an array: the matrix of the elements `g` of the rows. -/
def fullTerm (u : ExcRow) (g : Nat → Nat → Option K) : Option (Term K) :=
  let inv := PySet.listSet u.2.inv
  let frs := canonical u.2.axes
  let nb := k.lrProd u.1.1 inv
  let nk := k.lrProd u.1.2 inv
  ((List.range (nb * nk)).mapM (fun t => g (k.flatState u.1.1 frs (t / nk)) (k.flatState u.1.2 frs (t % nk)))).map (Term.full nb nk)

/-- hsi.py:1355-1386, opterm.py:168-182, 259-261: four different fragments; `i j c l` are the arguments `a i b j` of the code. -/
def fourTerm (H : Ham K) (bra ket i j c l s2lt : Nat) : Option (Term K) := do
  let L := k.toLstdm
  let s2 := [0, 1, 3].getD s2lt 0
  let s11 := s2 / 2
  let s12 := s2 % 2
  let f1 ← L.facHh (k.offs0 ket) i j c l
  let f2 ← L.facPp (k.offs0 bra) i j c l
  let fac : K := (if (i, j, s11) = (c, l, s12) then 1 / 2 else 1) * ((f1 * f2 : Int) : K)
  let ham := fun z w x y => (H.four L.nlas l c j i z y w x - if s11 = s12 then H.four L.nlas l i j c z x w y else 0) * fac
  let frs := [l, j, i, c].mergeSort (fun a b => decide (a ≤ b))
  let op := fun p => ham (p (frs.idxOf l)) (p (frs.idxOf j)) (p (frs.idxOf i)) (p (frs.idxOf c))
  let d := fun x p q o =>
    let f := frs.getD x 0
    let b := k.flatState bra [f] p
    let c' := k.flatState ket [f] q
    if f = l then (L.ints f).get1H b c' s12 o
    else if f = j then (L.ints f).get1H b c' s11 o
    else if f = i then (L.ints f).get1P b c' s11 o
    else (L.ints f).get1P b c' s12 o
  let no := frs.map L.no
  let lb := frs.map (fun f => (k.cols.getD bra []).getD f 0)
  let lk := frs.map (fun f => (k.cols.getD ket []).getD f 0)
  pure (.four lb lk no (fun r s b a jj ii => ∑ p ∈ Finset.range (no.getD 0 0), ∑ q ∈ Finset.range (no.getD 1 0),
    d 0 a ii p * d 1 b jj q * op (fun x => [p, q, r, s].getD x 0)) d)

/-- hsi.py:168-185 with 1331-1386: the operator of a row for the Hamiltonian. -/
def hTerm (H : Ham K) (u : ExcRow) : Option (Term K) :=
  let full := k.fullTerm u (fun b c => (k.toLstdm.hamRow H b c u.2).map Prod.fst)
  match u.2 with
  | .c2 i j c l s => if i = c ∨ j = l then full else k.fourTerm H u.1.1 u.1.2 i j c l s
  | _ => full

/-- hsi.py:186-193: the operator of a row for spin squared. -/
def sTerm (H : Ham K) (u : ExcRow) : Option (Term K) :=
  k.fullTerm u (fun b c => (k.toLstdm.hamRow H b c u.2).bind Prod.snd)

/-- hsi.py:168-193 `_crunch_oppart_`: `self.optermgroups_h` or `self.optermgroups_s`, for the rows `rows`. -/
def optermGroups (mk : ExcRow → Option (Term K)) (rows : List ExcRow) : Option (List (List Nat × List (ExcRow × Term K))) :=
  rows.foldlM (fun gs u => (mk u).map (fun op => addGroup gs (PySet.listSet u.2.inv) (u, op))) []

/-- hsi.py:840-846 `ox_ovlp_urootstr`. -/
def oxStr (bra ket : Nat) (inv : List Nat) : List Nat :=
  (List.range k.nlas.length).map (fun f => if f ∈ inv then k.uroot f ket else k.uroot f bra)

/-- hsi.py:214-232: the rows of `ovlplinkstr` before those already seen are skipped. -/
def allLinks (inv : List Nat) (us : List ExcRow) : Option (List (Nat × List Nat)) :=
  (us.mapM (fun u => k.lookup (u.1, u.2.inv))).map (fun tabs => tabs.flatMap (fun tab => tab.flatMap (fun p =>
    (p.2, k.oxStr p.1 p.2 inv) :: if p.1 ≠ p.2 then [(p.1, k.oxStr p.2 p.1 inv)] else [])))

/-- hsi.py:198-236 `_index_ovlppart`, one group. -/
def ovlpLink (hash : Nat × List Nat → Int) (inv : List Nat) (us : List ExcRow) : Option (List (Nat × List Nat)) :=
  (k.allLinks inv us).map (keepNew hash [])

/-- hsi.py:339-342, 348, 356-359: the sign of a rootspace. -/
def hsiFac (r : Nat) (inv : List Nat) : Option K := do
  let n := k.nelec.getD r []
  let s ← fermionSpinShuffle (n.map Prod.fst) (n.map Prod.snd)
  pure ((s * fermionFragShuffle (n.map (fun p => p.1 + p.2)) inv : Int) : K)

/-- hsi.py:339-342 `get_xvec` as a column. -/
def xVec (x : Nat → K) (r : Nat) (inv : List Nat) : Option (Buf K) :=
  (k.hsiFac r inv).map (fun fac => ⟨(k.cols.getD r []).prod, 1, fun t => fac * x (k.offs0 r + t)⟩)

/-- A dictionary of vectors. -/
abbrev Vecs (K : Type) := List Nat → Option (Buf K)

/-- `vecs[key] = vecs.get (key, 0) + vec`; NumPy also adds a single row or column, which is not modelled. -/
def addVec (vs : Vecs K) (key : List Nat) (v : Buf K) : Option (Vecs K) :=
  match vs key with
  | none => some (fun s => if s = key then some v else vs s)
  | some w => if w.size = v.size ∧ w.lr = v.lr then
      some (fun s => if s = key then some ⟨v.size, v.lr, fun t => w.dat t + v.dat t⟩ else vs s) else none

/-- hsi.py:397-400: the slices of the vector, by `urootstr`. -/
def vecs0 (x : Nat → K) (inv : List Nat) (link : List (Nat × List Nat)) : Option (Vecs K) :=
  (link.map Prod.fst).dedup.foldlM (fun vs ket => (k.xVec x ket inv).bind (fun v =>
    addVec vs ((List.range k.nlas.length).map (fun f => k.uroot f ket)) v)) (fun _ => none)

/-- frag.py:439-443 `get_lroots_uroot`. -/
def lrU (f u : Nat) : Nat :=
  match (List.range k.cols.length).find? (fun r => k.uroot f r == u) with
  | some r => (k.cols.getD r []).getD f 0
  | none => 0

/-- hsi.py:403-407: the dimension of a nonspectator fragment moves to the columns. -/
def vecsInv (f : Nat) (vs : Vecs K) : Vecs K := fun s =>
  (vs s).map (fun v => ⟨v.size, v.lr * k.lrU f (s.getD f 0), v.dat⟩)

/-- hsi.py:848-857 `ox_ovlp_uniq_str`: the pairs of source and destination; the order, which is that of `np.unique`, does not matter. -/
def uniqStr (link : List (Nat × List Nat)) (f : Nat) : List (List Nat × List Nat) :=
  (link.map (fun e =>
    ((List.range k.nlas.length).map (fun g => if g < f then e.2.getD g 0 else k.uroot g e.1),
     (List.range k.nlas.length).map (fun g => if g < f + 1 then e.2.getD g 0 else k.uroot g e.1)))).dedup

/-- hsi.py:864-872: one pass of the loop, `'pq,lqr->plr'`. -/
def ovlpOne (f : Nat) (s os : List Nat) (v : Buf K) : Option (Buf K) :=
  let lket := k.lrU f (s.getD f 0)
  let lbra := k.lrU f (os.getD f 0)
  if lket * v.lr = 0 ∨ v.size % (lket * v.lr) ≠ 0 then none else
    let n := v.size / (lket * v.lr)
    some ⟨lbra * n * v.lr, v.lr, fun t => ∑ q ∈ Finset.range lket,
      (k.tabs f).get1Ovlp (Nat.pair (os.getD f 0) (t / (n * v.lr))) (Nat.pair (s.getD f 0) q) *
        v.dat ((t / v.lr % n * lket + q) * v.lr + t % v.lr)⟩

/-- hsi.py:859-872 `ox_ovlp_frag`; every key has an addend, so that its initial value 0 is the missing entry of `addVec`. -/
def vecsOvlp (link : List (Nat × List Nat)) (f : Nat) (vs : Vecs K) : Option (Vecs K) :=
  (k.uniqStr link f).foldlM (fun ov p => (vs p.1).bind (fun v => (k.ovlpOne f p.1 p.2 v).bind (addVec ov p.2))) (fun _ => none)

/-- hsi.py:397-409: the vectors with the overlaps of the spectators. -/
def groupVecs (x : Nat → K) (inv : List Nat) (link : List (Nat × List Nat)) : Option (Vecs K) := do
  let vs ← k.vecs0 x inv link
  (List.range k.nlas.length).foldlM (fun vs f => if f ∈ inv then some (k.vecsInv f vs) else k.vecsOvlp link f vs) vs

/-- hsi.py:344-347 `put_ox1_`. -/
def putOx1 (ox1 : Nat → K) (v : Nat × (Nat → K)) (r : Nat) (inv : List Nat) : Option (Nat → K) := do
  let fac ← k.hsiFac r inv
  let i := k.offs0 r
  let n := (k.cols.getD r []).prod
  if v.1 ≠ n then none else pure (fun t => if i ≤ t ∧ t < i + n then ox1 t + fac * v.2 (t - i) else ox1 t)

/-- hsi.py:238-247, 579-628 `_opuniq_x_`. -/
def opuniqX (vs : Vecs K) (ox1 : Nat → K) (uo : ExcRow × Term K) : Option (Nat → K) := do
  let u := uo.1
  let inv := PySet.listSet u.2.inv
  let tab ← k.lookup (u.1, u.2.inv)
  let bras := (tab.map Prod.fst).dedup
  let braHs := (((tab.filter (fun p => decide (p.1 ≠ p.2))).map Prod.snd).dedup).filter (fun r => decide (r ∉ bras))
  let ox1 ← bras.foldlM (fun ox1 bra => do
    let v ← vs (k.oxStr bra u.1.2 inv)
    let w ← uo.2.dot v
    k.putOx1 ox1 w bra inv) ox1
  braHs.foldlM (fun ox1 bra => do
    let v ← vs (k.oxStr bra u.1.1 inv)
    let w ← uo.2.conjT.dot v
    k.putOx1 ox1 w bra inv) ox1

/-- hsi.py:419-423: the result of a group for one rootspace. -/
def putOx (inv : List Nat) (ox1 ox : Nat → K) (r : Nat) : Option (Nat → K) := do
  let i := k.offs0 r
  let n := (k.cols.getD r []).prod
  let w ← Bigdim.withSlowFragments ⟨[n], fun t => ox1 (i + t.getD 0 0)⟩ (k.cols.getD r []) inv
  pure (fun t => if i ≤ t ∧ t < i + n then ox t + w.get [0, t - i] else ox t)

/-- hsi.py:391-429 `_opuniq_x_group_`. -/
def opuniqGroup (hash : Nat × List Nat → Int) (x : Nat → K) (ox : Nat → K) (g : List Nat × List (ExcRow × Term K)) :
    Option (Nat → K) := do
  let link ← k.ovlpLink hash g.1 (g.2.map Prod.fst)
  let vs ← k.groupVecs x g.1 link
  let ox1 ← g.2.foldlM (k.opuniqX vs) (fun _ => 0)
  (List.range k.cols.length).foldlM (k.putOx g.1 ox1) ox

/-- hsi.py:104-115, 370-381 `_ham_op`. -/
def hamOp (hash : Nat × List Nat → Int) (H : Ham K) (x : Nat → K) : Option (Nat → K) := do
  let gs ← optermGroups (k.hTerm H) k.hsiRows
  gs.foldlM (k.opuniqGroup hash x) (fun _ => 0)

/-- hsi.py:104-115, 382-389 `_s2_op`. -/
def s2Op (hash : Nat × List Nat → Int) (H : Ham K) (x : Nat → K) : Option (Nat → K) := do
  let gs ← optermGroups (k.sTerm H) (k.hsiRows.filter (fun u => hasS2 u.2))
  gs.foldlM (k.opuniqGroup hash x) (fun _ => 0)

/-- hsi.py:874-887 `_ovlp_op`. -/
def ovlpOp (x : Nat → K) : Option (Nat → K) :=
  k.excNull.foldlM (fun ox p => (k.crunchOvlp p.1 p.2).bind (fun o =>
    let i := blockAt k.cols p.1
    let j := blockAt k.cols p.2
    if o.1 = i.2 - i.1 ∧ o.2.1 = j.2 - j.1 then
      let ox := fun t => if i.1 ≤ t ∧ t < i.2 then ox t + ∑ c ∈ Finset.range o.2.1, o.2.2 (t - i.1) c * x (j.1 + c) else ox t
      some (fun t => if j.1 ≤ t ∧ t < j.2 then ox t + ∑ b ∈ Finset.range o.1, o.2.2 b (t - j.1) * x (i.1 + b) else ox t)
    else none)) (fun _ => 0)

end Kern
end Verif.Lstdm
