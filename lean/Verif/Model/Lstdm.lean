import Verif.Model.Signs
import Verif.Model.ExcTables
import Mathlib.Algebra.BigOperators.Group.Finset.Basic
import Mathlib.Algebra.Ring.Defs
/-!
# Model of the elements of `LSTDM` (/repo/my_pyscf/lassi/op_o1/stdm.py) for one pair of model states

Fragment-local intermediates and their accessors (/repo/my_pyscf/lassi/op_o1/frag.py), the seven `_crunch_*_` functions, the
factor of the spectator fragments, and the sum over the rows of the excitation tables that belong to the pair.

Simplifications: real arithmetic without rounding (`conj` is the identity); arrays are functions of their indices; the buffers
`d1`, `d2` are indexed by all active orbitals instead of the orbitals of the interacting fragments only (stdm.py:1015-1062; the
scatter of the compact buffers is the C code of properties C16 and C19).
-/
namespace Verif.Lstdm
open Verif.Spec (Inter)
open Verif.Signs Verif.Exc

variable {K : Type} [CommRing K]

/-- The tables of one fragment, frag.py `FragTDMInt.mats`, by pairs of model states (`try_get_1`, frag.py:206-211):
overlap, `h[s]` (annihilator of spin s), `hh[s]` (two annihilators), `phh[s]`, `sm`, `dm1`, `dm2`; `upper i j` is the test
`b > a` of frag.py:406-409, 424-427 that decides which triangle of `dm1`, `dm2` is stored. -/
structure FragInt (K : Type) where
  ovlp : Nat → Nat → K
  h : Nat → Nat → Nat → Nat → K
  hh : Nat → Nat → Nat → Nat → Nat → K
  phh : Nat → Nat → Nat → Nat → Nat → Nat → Nat → K
  sm : Nat → Nat → Nat → Nat → K
  dm1 : Nat → Nat → Nat → Nat → Nat → K
  dm2 : Nat → Nat → Nat → Nat → Nat → Nat → Nat → K
  upper : Nat → Nat → Bool

namespace FragInt
variable (F : FragInt K)

/-- frag.py:284-285 `get_1_ovlp`. -/
def get1Ovlp (i j : Nat) : K := F.ovlp i j
/-- frag.py:301-302 `get_1_h`. -/
def get1H (i j s x : Nat) : K := F.h s i j x
/-- frag.py:304-305 `get_1_p`. -/
def get1P (i j s x : Nat) : K := F.h s j i x
/-- frag.py:322-324 `get_1_hh`. -/
def get1Hh (i j s x y : Nat) : K := F.hh s i j x y
/-- frag.py:326-327 `get_1_pp`: `.conj ().T`. -/
def get1Pp (i j s x y : Nat) : K := F.hh s j i y x
/-- frag.py:344-345 `get_1_phh`: `.transpose (0,2,3,1)`. -/
def get1Phh (i j s t a b c : Nat) : K := F.phh s i j t c a b
/-- frag.py:347-348 `get_1_pph`: `.conj ().transpose (0,1,3,2)`. -/
def get1Pph (i j s t a b c : Nat) : K := F.phh s j i t a c b
/-- frag.py:364-365 `get_1_sm`. -/
def get1Sm (i j x y : Nat) : K := F.sm i j x y
/-- frag.py:367-368 `get_1_sp`: `.conj ().T`. -/
def get1Sp (i j x y : Nat) : K := F.sm j i y x
/-- frag.py:404-410 `get_1_dm1`. -/
def get1Dm1 (i j s a b : Nat) : K := if F.upper i j then F.dm1 j i s b a else F.dm1 i j s a b
/-- frag.py:422-428 `get_1_dm2`. -/
def get1Dm2 (i j st a b c e : Nat) : K := if F.upper i j then F.dm2 j i st b a e c else F.dm2 i j st a b c e

end FragInt

/-- `D1[s, p, q]`. -/
abbrev D1 (K : Type) := Nat → Nat → Nat → K
/-- `D2[st, p, q, r, u]`. -/
abbrev D2 (K : Type) := Nat → Nat → Nat → Nat → Nat → K

/-- stdm.py:695-697 `_get_D1_`: the buffer set to zero. -/
def zero1 : D1 K := fun _ _ _ => 0
/-- stdm.py:699-701 `_get_D2_`. -/
def zero2 : D2 K := fun _ _ _ _ _ => 0

/-- A range of orbitals `[p, q)`. -/
abbrev Rng := Nat × Nat

/-- stdm.py:456-471 `get_range`. -/
def getRange (nlas : List Nat) (i : Nat) : Rng := ((nlas.take i).sum, (nlas.take i).sum + nlas.getD i 0)

/-- `p <= x < q`. -/
def inRng (r : Rng) (x : Nat) : Bool := decide (r.1 ≤ x) && decide (x < r.2)

/-- NumPy assignment `d[ss, p:q, r:s] = blk`; the first index of `blk` is the position in `ss`. -/
def put2 (d : D1 K) (ss : List Nat) (r1 r2 : Rng) (blk : Nat → Nat → Nat → K) : D1 K := fun s a b =>
  if (decide (s ∈ ss) && inRng r1 a && inRng r2 b) = true then blk (ss.idxOf s) (a - r1.1) (b - r2.1) else d s a b

/-- NumPy assignment `d[ss, p:q, r:s, t:u, v:w] = blk`. -/
def put4 (d : D2 K) (ss : List Nat) (r1 r2 r3 r4 : Rng) (blk : Nat → Nat → Nat → Nat → Nat → K) : D2 K := fun s a b c e =>
  if (decide (s ∈ ss) && inRng r1 a && inRng r2 b && inRng r3 c && inRng r4 e) = true then
    blk (ss.idxOf s) (a - r1.1) (b - r2.1) (c - r3.1) (e - r4.1) else d s a b c e

/-- The data of the class for the model states: orbitals and tables of the fragments, numbers of electrons of the fragments in
each state. -/
structure Lstdm (K : Type) where
  nlas : List Nat
  ints : Nat → FragInt K
  nelec : Nat → List (Nat × Nat)

namespace Lstdm
variable (L : Lstdm K)

/-- stdm.py:114 `self.nelec_rf = nelec_frs.sum (2).T`, for the rootspace of the state. -/
def nelecF (st : Nat) : List Nat := (L.nelec st).map (fun p => p.1 + p.2)

/-- stdm.py:111-113 `self.spin_shuffle`. -/
def spinShuffle (st : Nat) : Option Int := fermionSpinShuffle ((L.nelec st).map Prod.fst) ((L.nelec st).map Prod.snd)

/-- stdm.py:473-500 `get_ovlp_fac` (the same factor for all states of a pair of rootspaces: `_get_spec_addr_ovlp_1space`,
stdm.py:671-686). -/
def ovlpFac (bra ket : Nat) (inv : List Nat) : Option K := do
  let sb ← L.spinShuffle bra
  let sk ← L.spinShuffle ket
  let wgt := (((List.range L.nlas.length).filter (fun f => decide (f ∉ inv))).map (fun f => (L.ints f).get1Ovlp bra ket)).prod
  let uniq := PySet.listSet inv
  pure (wgt * ((sb * sk : Int) : K) * ((fermionFragShuffle (L.nelecF bra) uniq : Int) : K) *
    ((fermionFragShuffle (L.nelecF ket) uniq : Int) : K))

/-- stdm.py:750-763 `_crunch_1d_`. -/
def crunch1d (bra ket i : Nat) : Option (D1 K × D2 K) :=
  let r := getRange L.nlas i
  some (put2 zero1 [0, 1] r r ((L.ints i).get1Dm1 bra ket), put4 zero2 [0, 1, 2, 3] r r r r ((L.ints i).get1Dm2 bra ket))

/-- stdm.py:765-783 `_crunch_2d_`. -/
def crunch2d (bra ket i j : Nat) : Option (D1 K × D2 K) :=
  let pq := getRange L.nlas i
  let rs := getRange L.nlas j
  let dii := (L.ints i).get1Dm1 bra ket
  let djj := (L.ints j).get1Dm1 bra ket
  let iijj : D2 K := fun st a b c e => dii (st / 2) a b * djj (st % 2) c e
  let d2 := put4 zero2 [0, 1, 2, 3] pq pq rs rs iijj
  let d2 := put4 d2 [0, 3] rs rs pq pq (fun k x0 x1 x2 x3 => iijj ([0, 3].getD k 0) x2 x3 x0 x1)
  let d2 := put4 d2 [1, 2] rs rs pq pq (fun k x0 x1 x2 x3 => iijj ([2, 1].getD k 0) x2 x3 x0 x1)
  let d2 := put4 d2 [0, 3] pq rs rs pq (fun k x0 x1 x2 x3 => -iijj ([0, 3].getD k 0) x0 x3 x2 x1)
  let d2 := put4 d2 [0, 3] rs pq pq rs (fun k x0 x1 x2 x3 => -iijj ([0, 3].getD k 0) x2 x1 x0 x3)
  some (zero1, d2)

/-- stdm.py:815-819 and 852-856, the inner function `_crunch_1c_tdm2`, with the spin indices of stdm.py:810-814. -/
def crunch1cTdm2 (s1 : Nat) (d2 : D2 K) (blk : Nat → Nat → Nat → Nat → Nat → K) (i j k : Rng) : D2 K :=
  let s12l := s1 * 2
  let s12h := s12l + 1
  let s21l := s1
  let s21h := s21l + 2
  let s1s1 := s1 * 3
  let d2 := put4 d2 [s12l, s12h] i j k k blk
  let d2 := put4 d2 [s21l, s21h] k k i j (fun t x0 x1 x2 x3 => blk t x2 x3 x0 x1)
  let d2 := put4 d2 [s1s1] i k k j (fun _ x0 x1 x2 x3 => -blk s1 x0 x3 x2 x1)
  put4 d2 [s1s1] k j i k (fun _ x0 x1 x2 x3 => -blk s1 x2 x1 x0 x3)

/-- stdm.py:785-831 `_crunch_1c_`. -/
def crunch1c (bra ket i j s1 : Nat) : Option (D1 K × D2 K) := do
  let pq := getRange L.nlas i
  let rs := getRange L.nlas j
  let f1 ← fermionDesShuffle (L.nelecF bra) [i, j] i
  let f2 ← fermionDesShuffle (L.nelecF ket) [i, j] j
  let fac : K := ((f1 * f2 : Int) : K)
  let p := (L.ints i).get1P bra ket s1
  let h := (L.ints j).get1H bra ket s1
  let d1 := put2 zero1 [s1] pq rs (fun _ a b => fac * (p a * h b))
  let ijii := fun t a b c e => fac * ((L.ints i).get1Pph bra ket s1 t a c e * h b)
  let d2 := crunch1cTdm2 s1 zero2 ijii pq rs pq
  let ijjj := fun t a b c e => fac * (p a * (L.ints j).get1Phh bra ket s1 t c e b)
  let d2 := crunch1cTdm2 s1 d2 ijjj pq rs rs
  pure (d1, d2)

/-- stdm.py:833-864 `_crunch_1c1d_`. -/
def crunch1c1d (bra ket i j k s1 : Nat) : Option (D1 K × D2 K) := do
  let pq := getRange L.nlas i
  let rs := getRange L.nlas j
  let tu := getRange L.nlas k
  let f1 ← fermionDesShuffle (L.nelecF bra) [i, j, k] i
  let f2 ← fermionDesShuffle (L.nelecF ket) [i, j, k] j
  let fac : K := ((f1 * f2 : Int) : K)
  let p := (L.ints i).get1P bra ket s1
  let h := (L.ints j).get1H bra ket s1
  let dkk := (L.ints k).get1Dm1 bra ket
  pure (zero1, crunch1cTdm2 s1 zero2 (fun t a b c e => fac * (p a * h b * dkk t c e)) pq rs tu)

/-- stdm.py:866-889 `_crunch_1s_`. -/
def crunch1s (bra ket i j : Nat) : Option (D1 K × D2 K) :=
  let pq := getRange L.nlas i
  let rs := getRange L.nlas j
  let spsm := fun a b c e => -((L.ints i).get1Sp bra ket a b * (L.ints j).get1Sm bra ket c e)
  let d2 : D2 K := put4 zero2 [1] pq rs rs pq (fun _ x0 x1 x2 x3 => spsm x0 x3 x2 x1)
  let d2 := put4 d2 [2] rs pq pq rs (fun _ x0 x1 x2 x3 => spsm x2 x1 x0 x3)
  some (zero1, d2)

/-- stdm.py:891-925 `_crunch_1s1c_`. -/
def crunch1s1c (bra ket i j k s1 : Nat) : Option (D1 K × D2 K) := do
  let s2 := 1 - s1
  let pq := getRange L.nlas i
  let rs := getRange L.nlas j
  let tu := getRange L.nlas k
  let f1 ← fermionDesShuffle (L.nelecF bra) [i, j, k] i
  let f2 ← fermionDesShuffle (L.nelecF ket) [i, j, k] j
  let fac : K := ((-1 * f1 * f2 : Int) : K)
  let p := (L.ints i).get1P bra ket s1
  let h := (L.ints j).get1H bra ket s2
  let dkk := if s1 = 0 then (L.ints k).get1Sm bra ket else (L.ints k).get1Sp bra ket
  let ikkj := fun x0 x1 x2 x3 => fac * (p x0 * h x3 * dkk x2 x1)
  let d2 : D2 K := put4 zero2 [1 + s1] pq tu tu rs (fun _ => ikkj)
  let d2 := put4 d2 [2 - s1] tu rs pq tu (fun _ x0 x1 x2 x3 => ikkj x2 x3 x0 x1)
  pure (zero1, d2)

variable [DecidableEq K]

/-- stdm.py:960-961, 971-972: `assert (np.all (np.abs (pp + pp.T)) < 1e-8)`. The comparison applies to the *boolean* returned by
`np.all`, so the assertion passes unless every element of `pp + pp.T` is nonzero. -/
def assertAnti (n : Nat) (pp : Nat → Nat → K) : Option Unit :=
  if (List.range n).all (fun x => (List.range n).all (fun y => decide (pp x y + pp y x ≠ 0))) then none else some ()

/-- stdm.py:958-968: `pp` and its sign factor. -/
def ppOf (bra ket i j k l s2lt s11 s12 : Nat) : Option ((Nat → Nat → K) × Int) :=
  if i = k then do
    let pp := (L.ints i).get1Pp bra ket s2lt
    if s2lt ≠ 1 then
      let _ ← assertAnti (L.nlas.getD i 0) pp
      pure (pp, 1)
    else pure (pp, 1)
  else do
    let f1 ← fermionDesShuffle (L.nelecF bra) [i, j, k, l] i
    let f2 ← fermionDesShuffle (L.nelecF bra) [i, j, k, l] k
    pure (fun x y => (L.ints i).get1P bra ket s11 x * (L.ints k).get1P bra ket s12 y, (if i > k then -1 else 1) * f1 * f2)

/-- stdm.py:969-978: `hh` and its sign factor. -/
def hhOf (bra ket i j k l s2lt s11 s12 : Nat) : Option ((Nat → Nat → K) × Int) :=
  if j = l then do
    let hh := (L.ints j).get1Hh bra ket s2lt
    if s2lt ≠ 1 then
      let _ ← assertAnti (L.nlas.getD j 0) hh
      pure (hh, 1)
    else pure (hh, 1)
  else do
    let f1 ← fermionDesShuffle (L.nelecF ket) [i, j, k, l] j
    let f2 ← fermionDesShuffle (L.nelecF ket) [i, j, k, l] l
    pure (fun x y => (L.ints l).get1H bra ket s12 x * (L.ints j).get1H bra ket s11 y, (if j > l then -1 else 1) * f1 * f2)

/-- stdm.py:927-996 `_crunch_2c_`. -/
def crunch2c (bra ket i j k l s2lt : Nat) : Option (D1 K × D2 K) := do
  let s2 := [0, 1, 3].getD s2lt 0
  let s2T := [0, 2, 3].getD s2lt 0
  let s11 := s2 / 2
  let s12 := s2 % 2
  let (pp, fp) ← L.ppOf bra ket i j k l s2lt s11 s12
  let (hh, fh) ← L.hhOf bra ket i j k l s2lt s11 s12
  let fac : K := ((fp * fh : Int) : K)
  let ijkl := fun x0 x1 x2 x3 => fac * (pp x0 x2 * hh x3 x1)
  let pq := getRange L.nlas i
  let rs := getRange L.nlas j
  let tu := getRange L.nlas k
  let vw := getRange L.nlas l
  let d2 : D2 K := put4 zero2 [s2] pq rs tu vw (fun _ => ijkl)
  let d2 := put4 d2 [s2T] tu vw pq rs (fun _ x0 x1 x2 x3 => ijkl x2 x3 x0 x1)
  if s2 = s2T then
    let d2 := put4 d2 [s2] pq vw tu rs (fun _ x0 x1 x2 x3 => -ijkl x0 x3 x2 x1)
    let d2 := put4 d2 [s2] tu rs pq vw (fun _ x0 x1 x2 x3 => -ijkl x2 x1 x0 x3)
    pure (zero1, d2)
  else pure (zero1, d2)

/-- A row of one of the tables `exc_1d`, `exc_2d`, `exc_1c`, `exc_1c1d`, `exc_1s`, `exc_1s1c`, `exc_2c`, without the columns bra and
ket. -/
inductive Row where
  | d1 (i : Nat) | d2 (i j : Nat) | c1 (i j s : Nat) | c1d1 (i j k s : Nat) | s1 (i j : Nat) | s1c1 (i j k s : Nat)
  | c2 (i j k l s : Nat)
deriving DecidableEq, Repr

/-- stdm.py:1004-1008: the fragment columns, `row[2:-1]` or `row[2:]`. -/
def Row.inv : Row → List Nat
  | .d1 i => [i]
  | .d2 i j => [i, j]
  | .c1 i j _ => [i, j]
  | .c1d1 i j k _ => [i, j, k]
  | .s1 i j => [i, j]
  | .s1c1 i j k _ => [i, j, k]
  | .c2 i j k l _ => [i, j, k, l]

/-- stdm.py:1071-1078: the function called for each table. -/
def crunch (bra ket : Nat) : Row → Option (D1 K × D2 K)
  | .d1 i => L.crunch1d bra ket i
  | .d2 i j => L.crunch2d bra ket i j
  | .c1 i j s => L.crunch1c bra ket i j s
  | .c1d1 i j k s => L.crunch1c1d bra ket i j k s
  | .s1 i j => L.crunch1s bra ket i j
  | .s1c1 i j k s => L.crunch1s1c bra ket i j k s
  | .c2 i j k l s => L.crunch2c bra ket i j k l s

/-- stdm.py:703-743 `_put_D1_`, `_put_D2_` for this pair of states: `tdm += D * w`. -/
def put (bra ket : Nat) (acc : D1 K × D2 K) (row : Row) : Option (D1 K × D2 K) := do
  let (d1, d2) ← L.crunch bra ket row
  let w ← L.ovlpFac bra ket row.inv
  pure (fun s a b => acc.1 s a b + d1 s a b * w, fun s a b c e => acc.2 s a b c e + d2 s a b c e * w)

/-- The numbers of electrons of the fragments in a state, as the integers of `nelec_frs`. -/
def nelecI (st : Nat) : List (Int × Int) := (L.nelec st).map (fun p => ((p.1 : Int), (p.2 : Int)))

/-- The columns of a row of table `1c` after bra and ket. -/
def as1c : (Nat × Nat) × Inter → Option ((Nat × Nat) × (Nat × Nat × Nat))
  | (p, .c1 i j s) => some (p, (i, j, s))
  | _ => none

/-- The columns of a row of table `1s` after bra and ket. -/
def as1s : (Nat × Nat) × Inter → Option Row
  | (_, .s1 i j) => some (.s1 i j)
  | _ => none

/-- The columns of a row of table `1s1c` after bra and ket. -/
def as1s1c : (Nat × Nat) × Inter → Option Row
  | (_, .s1c1 i j k s) => some (.s1c1 i j k s)
  | _ => none

/-- The columns of a row of table `2c` after bra and ket. -/
def as2c : (Nat × Nat) × Inter → Option Row
  | (_, .c2 i j k l s) => some (.c2 i j k l s)
  | _ => none

omit [DecidableEq K] in
/-- The rows of all tables with this bra and ket, in the order of `_crunch_all_` (stdm.py:1070-1078); the tables are those of
`make_exc_tables` (Model/ExcTables.lean) for the list of interactions that contains the pair if it passes the screening of
`get_scallowed_interactions` (without the spin selection rule, i.e. `smult_fr = None`). -/
def rows (bra ket : Nat) : List Row :=
  let nel := [L.nelecI bra, L.nelecI ket]
  let scai := if SC.isCoupled (L.nelecI bra) (L.nelecI ket) then [(0, 1)] else []
  let null := (table rowNull nel scai).map Prod.fst
  let c1 := (table row1c nel scai).filterMap as1c
  let nfrags := L.nlas.length
  (table1d nfrags null).map (fun x => .d1 x.2) ++
  (table2d nfrags null).map (fun x => .d2 x.2.1 x.2.2) ++
  c1.map (fun x => .c1 x.2.1 x.2.2.1 x.2.2.2) ++
  (table1c1d nfrags c1).map (fun x => .c1d1 x.2.1 x.2.2.1 x.2.2.2.1 x.2.2.2.2) ++
  (table row1s nel scai).filterMap as1s ++
  (table row1s1c nel scai ++ table row1s1cT nel scai).filterMap as1s1c ++
  (table rowPair nel scai ++ (table rowSplit nel scai ++ table rowCoalesce nel scai) ++ table rowScatter nel scai).filterMap as2c

/-- The transition density matrices of a pair of model states: all rows of the pair (stdm.py:1070-1078). -/
def tdms (bra ket : Nat) : Option (D1 K × D2 K) := (L.rows bra ket).foldlM (L.put bra ket) (zero1, zero2)

end Lstdm
end Verif.Lstdm
