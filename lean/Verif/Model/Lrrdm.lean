import Verif.Model.Rotate
import Verif.Model.Bigdim
import Verif.Model.LstdmKernel
import Verif.Model.Overlap
/-!
# Model of `LRRDM` and `roots_trans_rdm12s` (/repo/my_pyscf/lassi/op_o1/rdm.py)

Reduced (transition) density matrices of linear combinations of model states, without the transition density matrices of pairs of
model states: the coefficients are transformed to the vectors of the representatives, contracted over the spectator fragments to
density matrices of the interacting fragments, and these are contracted with the tables of the fragments.

Simplifications: those of Model/LstdmKernel.lean; the numbers of electrons of the two spins are the same in all rootspaces
(`spin_pure`, rdm.py:661-672, 708-721); the checks of dtype and memory are left out; the sum of arrays of different shapes is an error
instead of a broadcast; `conj` is the identity.
-/
namespace Verif.Lstdm
open Verif.Spec Verif.Signs Verif.Exc Verif.Addr Verif.Np Verif.Umat

/-- `np.tensordot` over a pair of axes of lengths `n`, `m`. -/
def dot2 {K : Type} [CommRing K] (n m : Nat) (a b : Nat → Nat → K) : K :=
  ∑ q ∈ Finset.range n ×ˢ Finset.range m, a q.1 q.2 * b q.1 q.2

namespace Kern
variable {K : Type} (k : Kern K)

/-- stdm.py:92-94 `offs1`. -/
def offs1 (r : Nat) : Nat := (npCumsum (k.cols.map List.prod)).getD r 0

/-- rdm.py:130-162 `get_single_rootspace_sivec`, `get_frag_transposed_sivec`. -/
def slowSi (si : Nd K) (r : Nat) (inv : List Nat) : Option (Nd K) :=
  Bigdim.makeFragmentsSlow (si.slice0 (k.offs0 r) (k.offs1 r)) (k.cols.getD r []) inv

variable [Field K]

/-- rdm.py:230-252: the positions of bra and ket and the factors of the spectator fragments; the diagonal is halved and the upper
triangle is left out if bra and ket are the same rootspace. -/
def specPairs (rbra rket : Nat) (inv : List Nat) : Option (List (Nat × Nat × K)) := do
  let inv := PySet.listSet inv
  let nb := k.nelec.getD rbra []
  let nk := k.nelec.getD rket []
  let sb ← fermionSpinShuffle (nb.map Prod.fst) (nb.map Prod.snd)
  let sk ← fermionSpinShuffle (nk.map Prod.fst) (nk.map Prod.snd)
  let fac := sb * sk * fermionFragShuffle (nb.map (fun p => p.1 + p.2)) inv * fermionFragShuffle (nk.map (fun p => p.1 + p.2)) inv
  let spec := (List.range k.nlas.length).filter (fun f => decide (f ∉ inv))
  let o := spec.foldl (fun o f => kron1 (k.ovlpMat f rbra rket) o) (1, 1, fun _ _ => ((fac : Int) : K))
  pure ((List.range o.1).flatMap (fun x => (List.range o.2.1).filterMap (fun y =>
    if rbra = rket then
      if x < y then none else some (x, y, if x = y then o.2.2 x y * (1 / 2) else o.2.2 x y)
    else some (x, y, o.2.2 x y))))

/-- rdm.py:210-254 `get_fdm_1space`. -/
def fdm1space (sib sik : Nd K) (rbra rket : Nat) (inv : List Nat) : Option (Nd K) := do
  let sb ← k.slowSi sib rbra inv
  let sk ← k.slowSi sik rket inv
  let ps ← k.specPairs rbra rket inv
  pure ⟨[sb.shape.getD 0 0, sb.shape.getD 1 0, sk.shape.getD 1 0], fun t =>
    (ps.map (fun p => sb.get [t.getD 0 0, t.getD 1 0, p.1] * p.2.2 * sk.get [t.getD 0 0, t.getD 2 0, p.2.1])).sum⟩

/-- `a + b` for arrays of the same shape. -/
def addNd (a b : Nd K) : Option (Nd K) := if a.shape = b.shape then some ⟨a.shape, fun t => a.get t + b.get t⟩ else none

/-- rdm.py:198-203: the sum over the images; `none` without images, where the reshape of the scalar 0 fails. -/
def sumNd : List (Nd K) → Option (Nd K)
  | [] => none
  | a :: l => l.foldlM addNd a

/-- rdm.py:164-208 `get_fdm`. -/
def fdm (sib sik : Nd K) (rbra rket : Nat) (inv keyorder : List Nat) : Option (Nd K) := do
  let imgs ← k.lookup ((rbra, rket), keyorder)
  let inv := inv.eraseDups
  let fs ← imgs.mapM (fun im => k.fdm1space sib sik im.1 im.2 inv)
  let s ← sumNd fs
  let f ← s.reshape (sib.shape.getD 1 0 :: ((inv.map (fun f => (k.cols.getD rbra []).getD f 0)).reverse ++
    (inv.map (fun f => (k.cols.getD rket []).getD f 0)).reverse))
  pure (f.transpose (0 :: (List.range inv.length).flatMap (fun i => [i + 1, i + 1 + inv.length])))

/-- Number of local roots. -/
def nloc (r f : Nat) : Nat := (k.cols.getD r []).getD f 0

/-- Contraction of a pair of axes with a table of fragment `f`. -/
def con (f rb rk : Nat) (d : Nat → Nat → K) (g : Nat → Nat → K) : K :=
  dot2 (k.nloc rb f) (k.nloc rk f) d (fun a b => g (Nat.pair (k.uroot f rb) a) (Nat.pair (k.uroot f rk) b))

/-- rdm.py:256-269 `_crunch_1d_`; `d` is the density matrix of the fragments for one SI root. -/
def rdm1d (rb rk i : Nat) (d : List Nat → K) : Option (D1 K × D2 K) :=
  let r := getRange k.nlas i
  some (put2 zero1 [0, 1] r r (fun s x y => k.con i rb rk (fun a b => d [a, b]) (fun a b => (k.tabs i).get1Dm1 a b s x y)),
    put4 zero2 [0, 1, 2, 3] r r r r (fun s x y z w => k.con i rb rk (fun a b => d [a, b]) (fun a b => (k.tabs i).get1Dm2 a b s x y z w)))

/-- rdm.py:271-290 `_crunch_2d_`. -/
def rdm2d (rb rk i j : Nat) (d : List Nat → K) : Option (D1 K × D2 K) :=
  let pq := getRange k.nlas i
  let rs := getRange k.nlas j
  let jjsii := fun J J' s x y => k.con i rb rk (fun a b => d [J, J', a, b]) (fun a b => (k.tabs i).get1Dm1 a b s x y)
  let siisjj := fun s x y t z w => k.con j rb rk (fun a b => jjsii a b s x y) (fun a b => (k.tabs j).get1Dm1 a b t z w)
  let iijj : D2 K := fun st x y z w => siisjj (st / 2) x y (st % 2) z w
  let d2 := put4 zero2 [0, 1, 2, 3] pq pq rs rs iijj
  let d2 := put4 d2 [0, 3] rs rs pq pq (fun k x0 x1 x2 x3 => iijj ([0, 3].getD k 0) x2 x3 x0 x1)
  let d2 := put4 d2 [1, 2] rs rs pq pq (fun k x0 x1 x2 x3 => iijj ([2, 1].getD k 0) x2 x3 x0 x1)
  let d2 := put4 d2 [0, 3] pq rs rs pq (fun k x0 x1 x2 x3 => -iijj ([0, 3].getD k 0) x0 x3 x2 x1)
  let d2 := put4 d2 [0, 3] rs pq pq rs (fun k x0 x1 x2 x3 => -iijj ([0, 3].getD k 0) x2 x1 x0 x3)
  some (zero1, d2)

/-- rdm.py:292-340 `_crunch_1c_`; the inner function (322-326) makes the assignments of stdm.py:815-819. -/
def rdm1c (rb rk i j s1 : Nat) (d : List Nat → K) : Option (D1 K × D2 K) := do
  let pq := getRange k.nlas i
  let rs := getRange k.nlas j
  let f1 ← fermionDesShuffle ((k.nelec.getD rb []).map (fun p => p.1 + p.2)) [i, j] i
  let f2 ← fermionDesShuffle ((k.nelec.getD rk []).map (fun p => p.1 + p.2)) [i, j] j
  let fac : K := ((f1 * f2 : Int) : K)
  let iJJ := fun x J J' => k.con i rb rk (fun a b => d [J, J', a, b]) (fun a b => (k.tabs i).get1P a b s1 x)
  let d1 := put2 zero1 [s1] pq rs (fun _ x y => fac * k.con j rb rk (fun a b => iJJ x a b) (fun a b => (k.tabs j).get1H a b s1 y))
  let isjjj := fun x t y z w => k.con j rb rk (fun a b => iJJ x a b) (fun a b => (k.tabs j).get1Phh a b s1 t y z w)
  let d2 := Lstdm.crunch1cTdm2 s1 zero2 (fun t x y z w => fac * isjjj x t z w y) pq rs rs
  let jjsiii := fun J J' t x y z => k.con i rb rk (fun a b => d [J, J', a, b]) (fun a b => (k.tabs i).get1Pph a b s1 t x y z)
  let siiij := fun t x y z w => k.con j rb rk (fun a b => jjsiii a b t x y z) (fun a b => (k.tabs j).get1H a b s1 w)
  let d2 := Lstdm.crunch1cTdm2 s1 d2 (fun t x y z w => fac * siiij t x z w y) pq rs pq
  pure (d1, d2)

/-- rdm.py:342-375 `_crunch_1c1d_`. -/
def rdm1c1d (rb rk i j l s1 : Nat) (d : List Nat → K) : Option (D1 K × D2 K) := do
  let pq := getRange k.nlas i
  let rs := getRange k.nlas j
  let tu := getRange k.nlas l
  let f1 ← fermionDesShuffle ((k.nelec.getD rb []).map (fun p => p.1 + p.2)) [i, j, l] i
  let f2 ← fermionDesShuffle ((k.nelec.getD rk []).map (fun p => p.1 + p.2)) [i, j, l] j
  let fac : K := ((f1 * f2 : Int) : K)
  let kkjji := fun L L' J J' x => k.con i rb rk (fun a b => d [L, L', J, J', a, b]) (fun a b => (k.tabs i).get1P a b s1 x)
  let kkij := fun L L' x y => k.con j rb rk (fun a b => kkjji L L' a b x) (fun a b => (k.tabs j).get1H a b s1 y)
  let ijskk := fun x y t z w => k.con l rb rk (fun a b => kkij a b x y) (fun a b => (k.tabs l).get1Dm1 a b t z w)
  pure (zero1, Lstdm.crunch1cTdm2 s1 zero2 (fun t x y z w => fac * ijskk x y t z w) pq rs tu)

/-- rdm.py:377-402 `_crunch_1s_`. -/
def rdm1s (rb rk i j : Nat) (d : List Nat → K) : Option (D1 K × D2 K) :=
  let pq := getRange k.nlas i
  let rs := getRange k.nlas j
  let iiJJ := fun x y J J' => k.con i rb rk (fun a b => d [J, J', a, b]) (fun a b => (k.tabs i).get1Sp a b x y)
  let iijj := fun x y z w => -1 * k.con j rb rk (fun a b => iiJJ x y a b) (fun a b => (k.tabs j).get1Sm a b z w)
  let d2 : D2 K := put4 zero2 [1] pq rs rs pq (fun _ x0 x1 x2 x3 => iijj x0 x3 x2 x1)
  let d2 := put4 d2 [2] rs pq pq rs (fun _ x0 x1 x2 x3 => iijj x2 x1 x0 x3)
  some (zero1, d2)

/-- rdm.py:404-439 `_crunch_1s1c_`. -/
def rdm1s1c (rb rk i j l s1 : Nat) (d : List Nat → K) : Option (D1 K × D2 K) := do
  let s2 := 1 - s1
  let pq := getRange k.nlas i
  let rs := getRange k.nlas j
  let tu := getRange k.nlas l
  let f1 ← fermionDesShuffle ((k.nelec.getD rb []).map (fun p => p.1 + p.2)) [i, j, l] i
  let f2 ← fermionDesShuffle ((k.nelec.getD rk []).map (fun p => p.1 + p.2)) [i, j, l] j
  let fac : K := ((-1 * f1 * f2 : Int) : K)
  let kkjji := fun L L' J J' x => k.con i rb rk (fun a b => d [L, L', J, J', a, b]) (fun a b => (k.tabs i).get1P a b s1 x)
  let kkij := fun L L' x y => k.con j rb rk (fun a b => kkjji L L' a b x) (fun a b => (k.tabs j).get1H a b s2 y)
  let ijkk := fun x y z w => k.con l rb rk (fun a b => kkij a b x y)
    (fun a b => if s1 = 0 then (k.tabs l).get1Sm a b z w else (k.tabs l).get1Sp a b z w)
  let ikkj := fun x0 x1 x2 x3 => fac * ijkk x0 x3 x2 x1
  let d2 : D2 K := put4 zero2 [1 + s1] pq tu tu rs (fun _ => ikkj)
  let d2 := put4 d2 [2 - s1] tu rs pq tu (fun _ x0 x1 x2 x3 => ikkj x2 x3 x0 x1)
  pure (zero1, d2)

/-- rdm.py:478-487: contraction with the creation operators and the sign factor. The result is a function of the orbitals of the two
creation operators and of the remaining axes. -/
def rdmPp (rb rk i j l m s2lt s11 s12 : Nat) (d : List Nat → K) : Option ((Nat → Nat → List Nat → K) × Int) :=
  if i = l then
    pure (fun x y t => k.con i rb rk (fun a b => d (t ++ [a, b])) (fun a b => (k.tabs i).get1Pp a b s2lt x y), 1)
  else do
    let f1 ← fermionDesShuffle ((k.nelec.getD rb []).map (fun p => p.1 + p.2)) [i, j, l, m] i
    let f2 ← fermionDesShuffle ((k.nelec.getD rb []).map (fun p => p.1 + p.2)) [i, j, l, m] l
    let kki := fun x t => k.con i rb rk (fun a b => d (t ++ [a, b])) (fun a b => (k.tabs i).get1P a b s11 x)
    pure (fun x y t => k.con l rb rk (fun a b => kki x (t ++ [a, b])) (fun a b => (k.tabs l).get1P a b s12 y),
      (if i > l then -1 else 1) * f1 * f2)

/-- rdm.py:488-499: contraction with the annihilation operators and the sign factor; the orbitals are those of the annihilators of
fragments `l` and `j` of the code, in this order. -/
def rdmHh (rb rk i j l m s2lt s11 s12 : Nat) (d : Nat → Nat → List Nat → K) : Option ((Nat → Nat → Nat → Nat → K) × Int) :=
  if j = m then
    pure (fun x y z w => k.con j rb rk (fun a b => d x y [a, b]) (fun a b => (k.tabs j).get1Hh a b s2lt z w), 1)
  else do
    let f1 ← fermionDesShuffle ((k.nelec.getD rk []).map (fun p => p.1 + p.2)) [i, j, l, m] j
    let f2 ← fermionDesShuffle ((k.nelec.getD rk []).map (fun p => p.1 + p.2)) [i, j, l, m] m
    let jjl := fun x y z J J' => k.con m rb rk (fun a b => d x y [J, J', a, b]) (fun a b => (k.tabs m).get1H a b s12 z)
    pure (fun x y z w => k.con j rb rk (fun a b => jjl x y z a b) (fun a b => (k.tabs j).get1H a b s11 w),
      (if j > m then -1 else 1) * f1 * f2)

/-- rdm.py:441-511 `_crunch_2c_`; `l`, `m` are `k`, `l` of the code. -/
def rdm2c (rb rk i j l m s2lt : Nat) (d : List Nat → K) : Option (D1 K × D2 K) := do
  let s2 := [0, 1, 3].getD s2lt 0
  let s2T := [0, 2, 3].getD s2lt 0
  let s11 := s2 / 2
  let s12 := s2 % 2
  let (ik, fp) ← k.rdmPp rb rk i j l m s2lt s11 s12 d
  let (iklj, fh) ← k.rdmHh rb rk i j l m s2lt s11 s12 ik
  let fac : K := ((fp * fh : Int) : K)
  let ijkl := fun x0 x1 x2 x3 => fac * iklj x0 x2 x3 x1
  let pq := getRange k.nlas i
  let rs := getRange k.nlas j
  let tu := getRange k.nlas l
  let vw := getRange k.nlas m
  let d2 : D2 K := put4 zero2 [s2] pq rs tu vw (fun _ => ijkl)
  let d2 := put4 d2 [s2T] tu vw pq rs (fun _ x0 x1 x2 x3 => ijkl x2 x3 x0 x1)
  if s2 = s2T then
    let d2 := put4 d2 [s2] pq vw tu rs (fun _ x0 x1 x2 x3 => -ijkl x0 x3 x2 x1)
    let d2 := put4 d2 [s2] tu rs pq vw (fun _ x0 x1 x2 x3 => -ijkl x2 x1 x0 x3)
    pure (zero1, d2)
  else pure (zero1, d2)

/-- The order of the fragments in the call of `get_fdm`. -/
def fdmOrder : Lstdm.Row → List Nat
  | .c2 i j l m _ => [i, l, m, j]
  | r => r.inv

/-- The contractions of a row. -/
def rdmRow (rb rk : Nat) (d : List Nat → K) : Lstdm.Row → Option (D1 K × D2 K)
  | .d1 i => k.rdm1d rb rk i d
  | .d2 i j => k.rdm2d rb rk i j d
  | .c1 i j s => k.rdm1c rb rk i j s d
  | .c1d1 i j l s => k.rdm1c1d rb rk i j l s d
  | .s1 i j => k.rdm1s rb rk i j d
  | .s1c1 i j l s => k.rdm1s1c rb rk i j l s d
  | .c2 i j l m s => k.rdm2c rb rk i j l m s d

/-- The arrays `rdm1s[r]`, `rdm2s[r]`. -/
abbrev RArr (K : Type) := Nat → D1 K × D2 K

/-- `D1.transpose (0,1,3,2)`, `D2.transpose (0,1,3,2,5,4)`. -/
def transD (d : D1 K × D2 K) : D1 K × D2 K := (fun s p q => d.1 s q p, fun s p q r u => d.2 s q p u r)

/-- `a + b`. -/
def addD (a b : D1 K × D2 K) : D1 K × D2 K :=
  (fun s p q => a.1 s p q + b.1 s p q, fun s p q r u => a.2 s p q r u + b.2 s p q r u)

/-- rdm.py:256-531: one call of a function `_crunch_*_`, with `_put_D1_`, `_put_D2_`; for the second call of 541-544 bra and ket vectors
are exchanged and the result is transposed. The functions make the same contractions for all SI roots; an exception for one of them is
an exception of the call. -/
def rdmPut (sib sik : Nd K) (tr : Bool) (acc : RArr K) (u : ExcRow) : Option (RArr K) := do
  let d ← k.fdm (if tr then sik else sib) (if tr then sib else sik) u.1.1 u.1.2 (fdmOrder u.2) u.2.inv
  let ds ← (List.range (sib.shape.getD 1 0)).mapM (fun s => k.rdmRow u.1.1 u.1.2 (fun t => d.get (s :: t)) u.2)
  pure (fun s => addD (acc s) (if tr then transD (ds.getD s (zero1, zero2)) else ds.getD s (zero1, zero2)))

/-- rdm.py:533-544 `_crunch_env_`. -/
def rdmEnv (hermi : Bool) (sib sik : Nd K) (acc : RArr K) (u : ExcRow) : Option (RArr K) := do
  let acc ← k.rdmPut sib sik false acc u
  if hermi then pure acc else k.rdmPut sib sik true acc u

/-- rdm.py:71-74 `_add_transpose_`. -/
def rdmAddT (hermi : Bool) (acc : RArr K) : RArr K := fun s => if hermi then addD (acc s) (transD (acc s)) else acc s

/-- rdm.py:76-78 `_umat_linequiv_`; the array is transformed in place. -/
def siLinequiv (cols : List (List Nat)) (si : Nd K) (op : Nat × Nat × Nd K) : Option (Nd K) :=
  umatDot1frag si op.2.2.T cols op.1 op.2.1 0

/-- rdm.py:44-69 `__init__`: the transformed vectors. -/
def siLoop (umats : Nat → List (Nat × Nd K)) (si : Nd K) : Option (Nd K) :=
  (opsOf k.nlas.length umats).foldlM (siLinequiv k.cols) si

/-- rdm.py:80-100 `kernel` for the vectors of the caller. -/
def rdmKernel (umats : Nat → List (Nat × Nd K)) (hermi : Bool) (sib sik : Nd K) : Option (RArr K) := do
  let b ← k.siLoop umats sib
  let c ← k.siLoop umats sik
  if b.shape = c.shape then
    ((k.tables.flatMap k.findUniqueExc).foldlM (k.rdmEnv hermi b c) (fun _ => (zero1, zero2))).map (rdmAddT hermi)
  else none

/-- rdm.py:623-728 `roots_trans_rdm12s`: `rdm1s[r,s,p,q]` and `rdm2s[r,s,p,q,t,u,v]`, with the convention of PySCF. `hermi` is computed
from the vectors before the transformation: `np.amax (np.abs (si_bra-si_ket)) < 1e-8` (rdm.py:57). -/
def rootsTransRdm12s [LinearOrder K] (umats : Nat → List (Nat × Nd K)) (sib sik : Nd K) :
    Option ((Nat → Nat → Nat → Nat → K) × (Nat → Nat → Nat → Nat → Nat → Nat → Nat → K)) := do
  if sib.shape ≠ sik.shape then none
  else
    let n := sib.shape.getD 0 0
    let m := sib.shape.getD 1 0
    let hermi := (List.range n).all (fun a => (List.range m).all (fun s =>
      decide (max (sib.get [a, s] - sik.get [a, s]) (sik.get [a, s] - sib.get [a, s]) < 1 / 100000000)))
    let R ← k.rdmKernel umats hermi sib sik
    pure (fun r s p q => (R r).1 s q p, fun r s p q t u v => (R r).2 (2 * s + t) p q u v)

/-- rdm.py:731-750 `roots_make_rdm12s`. -/
def rootsMakeRdm12s [LinearOrder K] (umats : Nat → List (Nat × Nd K)) (si : Nd K) :
    Option ((Nat → Nat → Nat → Nat → K) × (Nat → Nat → Nat → Nat → Nat → Nat → Nat → K)) := k.rootsTransRdm12s umats si si

end Kern
end Verif.Lstdm
