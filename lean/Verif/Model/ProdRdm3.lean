import Verif.Model.ProdRdm
/-!
# Model of the assembly of the three-body density matrix of all active orbitals
(/repo/my_pyscf/mcscf/lasci.py:1601-1725 `make_casdm3`, 1727-1972 `make_casdm3s`)

The loops are written as the list of the block updates they make, in order.
-/
namespace Verif.ProdRdm
open scoped BigOperators
variable {R : Type*} [CommRing R]

/-- What follows an update of a block: nothing; the two transposed copies of term 7 (lasci.py:1710-1712); the five transposed
copies of `_transpose_dm3_` (lasci.py:1630-1636, 1765-1771). -/
inductive Copies | none | two | five
deriving DecidableEq

/-- `casdm3[blk] += V` (or `-=` if `neg`), and the copies made of the result. -/
structure Upd (R : Type*) where
  copies : Copies
  neg : Bool
  blk : List Nat
  V : Arr R

/-- lasci.py:1632: `casdm3[P, S, Q] = d.transpose (0,1,4,5,2,3)`, where `d` is the block `[P, Q, S]`. -/
def copy1 (n : List Nat) (A : Arr R) : List Nat → Arr R
  | [i0, i2, j0, j2, k0, k2] => setB n A [i0, i2, k0, k2, j0, j2]
      (arr6 fun a b e f c d => getB n A [i0, i2, j0, j2, k0, k2] [a, b, c, d, e, f])
  | _ => A
/-- lasci.py:1633: `casdm3[S, P, Q] = d.transpose (4,5,0,1,2,3)` -/
def copy2 (n : List Nat) (A : Arr R) : List Nat → Arr R
  | [i0, i2, j0, j2, k0, k2] => setB n A [k0, k2, i0, i2, j0, j2]
      (arr6 fun e f a b c d => getB n A [i0, i2, j0, j2, k0, k2] [a, b, c, d, e, f])
  | _ => A
/-- lasci.py:1634: `casdm3[S, Q, P] = d.transpose (4,5,2,3,0,1)` -/
def copy3 (n : List Nat) (A : Arr R) : List Nat → Arr R
  | [i0, i2, j0, j2, k0, k2] => setB n A [k0, k2, j0, j2, i0, i2]
      (arr6 fun e f c d a b => getB n A [i0, i2, j0, j2, k0, k2] [a, b, c, d, e, f])
  | _ => A
/-- lasci.py:1635: `casdm3[Q, S, P] = d.transpose (2,3,4,5,0,1)` -/
def copy4 (n : List Nat) (A : Arr R) : List Nat → Arr R
  | [i0, i2, j0, j2, k0, k2] => setB n A [j0, j2, k0, k2, i0, i2]
      (arr6 fun c d e f a b => getB n A [i0, i2, j0, j2, k0, k2] [a, b, c, d, e, f])
  | _ => A
/-- lasci.py:1636: `casdm3[Q, P, S] = d.transpose (2,3,0,1,4,5)` -/
def copy5 (n : List Nat) (A : Arr R) : List Nat → Arr R
  | [i0, i2, j0, j2, k0, k2] => setB n A [j0, j2, i0, i2, k0, k2]
      (arr6 fun c d a b e f => getB n A [i0, i2, j0, j2, k0, k2] [a, b, c, d, e, f])
  | _ => A

/-- One update. -/
def Upd.apply (n : List Nat) (A : Arr R) (u : Upd R) : Arr R :=
  let A := if u.neg then subB n A u.blk u.V else addB n A u.blk u.V
  match u.copies with
  | .none => A
  | .two => copy2 n (copy1 n A u.blk) u.blk
  | .five =>
    let A := copy1 n A u.blk
    let A := copy2 n A u.blk
    let A := copy3 n A u.blk
    let A := copy4 n A u.blk
    copy5 n A u.blk

/-- `combinations (range n, 3)` and `permutations (range n, 2)` -/
def comb3 (n : Nat) : List (Nat × Nat × Nat) :=
  (List.range n).flatMap fun i => (List.range n).flatMap fun k =>
    ((List.range n).filter fun m => decide (i < k) && decide (k < m)).map fun m => (i, k, m)
@[inherit_doc comb3]
def perm2 (n : Nat) : List (Nat × Nat) :=
  (List.range n).flatMap fun i => ((List.range n).filter fun j => decide (i ≠ j)).map fun j => (i, j)

/-- What the fragments supply in addition: `casdm2frs[f][r]`, components aa, ab, bb. -/
structure Frags2 (R : Type*) extends Frags R where
  aa : Nat → Nat → Nat → Nat → Nat → Nat → R
  ab : Nat → Nat → Nat → Nat → Nat → Nat → R
  bb : Nat → Nat → Nat → Nat → Nat → Nat → R

namespace Frags2
variable (F : Frags2 R)

/-- `np.tensordot (weights, einsum ('r,…->r…', weights, …), axes=1)`: the weights enter twice. -/
def wsum (g : Nat → R) : R := ∑ r ∈ Finset.range F.nroots, F.w r * (F.w r * g r)

/-- lasci.py:1624-1628, 1758-1763: the diagonal blocks. -/
def diag6 (dm3 : Nat → Arr R) (A : Arr R) : Arr R :=
  (List.range F.ncas.length).foldl (fun A f => setB F.ncas A [f, f, f, f, f, f] (dm3 f)) A

/-- lasci.py:1655-1691: terms 1 to 6 of `make_casdm3` for the fragments `i`, `k`, `m`. -/
def terms3 (x : Nat × Nat × Nat) : List (Upd R) :=
  let (f, g, h) := x
  let a1 := fun r => F.dm1 f r false; let b1 := fun r => F.dm1 f r true
  let a2 := fun r => F.dm1 g r false; let b2 := fun r => F.dm1 g r true
  let a3 := fun r => F.dm1 h r false; let b3 := fun r => F.dm1 h r true
  [⟨.five, false, [f, f, g, g, h, h], arr6 fun i j k l m n =>
      F.wsum fun r => (a1 r i j + b1 r i j) * (a2 r k l + b2 r k l) * (a3 r m n + b3 r m n)⟩,
   ⟨.five, true, [f, f, g, h, h, g], arr6 fun i j k n m l =>
      F.wsum fun r => (a1 r i j + b1 r i j) * a2 r k l * a3 r m n + (a1 r i j + b1 r i j) * b2 r k l * b3 r m n⟩,
   ⟨.five, false, [f, h, g, f, h, g], arr6 fun i n k j m l =>
      F.wsum fun r => a1 r i j * a2 r k l * a3 r m n + b1 r i j * b2 r k l * b3 r m n⟩,
   ⟨.five, true, [f, g, g, f, h, h], arr6 fun i l k j m n =>
      F.wsum fun r => a1 r i j * a2 r k l * (a3 r m n + b3 r m n) + b1 r i j * b2 r k l * (a3 r m n + b3 r m n)⟩,
   ⟨.five, true, [f, h, g, g, h, f], arr6 fun i n k l m j =>
      F.wsum fun r => a1 r i j * (a2 r k l + b2 r k l) * a3 r m n + b1 r i j * (a2 r k l + b2 r k l) * b3 r m n⟩,
   ⟨.five, false, [f, g, g, h, h, f], arr6 fun i l k n m j =>
      F.wsum fun r => a1 r i j * a2 r k l * a3 r m n + b1 r i j * b2 r k l * b3 r m n⟩]

/-- lasci.py:1696-1721: terms 7 and 8 of `make_casdm3` for the fragments `isub1`, `isub2`. -/
def terms2 (x : Nat × Nat) : List (Upd R) :=
  let (f, g) := x
  let a1 := fun r => F.dm1 g r false; let b1 := fun r => F.dm1 g r true
  let aa := F.aa f; let ab := F.ab f; let bb := F.bb f
  [⟨.two, false, [f, f, f, f, g, g], arr6 fun i j k l m n =>
      F.wsum fun r => (a1 r m n + b1 r m n) * aa r i j k l + (a1 r m n + b1 r m n) * ab r i j k l
        + (a1 r m n + b1 r m n) * ab r i j k l + (a1 r m n + b1 r m n) * bb r i j k l⟩,
   ⟨.five, true, [f, f, f, g, g, f], arr6 fun i j k n m l =>
      F.wsum fun r => a1 r m n * aa r i j k l + b1 r m n * ab r i j k l + a1 r m n * ab r i j k l + b1 r m n * bb r i j k l⟩]

/-- lasci.py:1601-1725 `make_casdm3`; `dm3` is `casdm3f`. -/
def makeCasdm3 (dm3 : Nat → Arr R) : Arr R :=
  ((comb3 F.ncas.length).flatMap F.terms3 ++ (perm2 F.ncas.length).flatMap F.terms2).foldl (Upd.apply F.ncas)
    (F.diag6 dm3 fun _ => 0)

/-- lasci.py:1791-1897: the updates of `casdm3s[0]` (`s` false) and `casdm3s[3]` (`s` true) for three fragments. -/
def terms3same (s : Bool) (x : Nat × Nat × Nat) : List (Upd R) :=
  let (f, g, h) := x
  let d1 := fun r => F.dm1 f r s
  let d2 := fun r => F.dm1 g r s
  let d3 := fun r => F.dm1 h r s
  [⟨.five, false, [f, f, g, g, h, h], arr6 fun i j k l m n => F.wsum fun r => d1 r i j * d2 r k l * d3 r m n⟩,
   ⟨.five, true, [f, f, g, h, h, g], arr6 fun i j k n m l => F.wsum fun r => d1 r i j * d2 r k l * d3 r m n⟩,
   ⟨.five, true, [f, g, g, f, h, h], arr6 fun i l k j m n => F.wsum fun r => d1 r i j * d2 r k l * d3 r m n⟩,
   ⟨.five, false, [f, g, g, h, h, f], arr6 fun i l k n m j => F.wsum fun r => d1 r i j * d2 r k l * d3 r m n⟩,
   ⟨.five, true, [f, h, g, g, h, f], arr6 fun i n k l m j => F.wsum fun r => d1 r i j * d2 r k l * d3 r m n⟩,
   ⟨.five, false, [f, h, g, f, h, g], arr6 fun i n k j m l => F.wsum fun r => d1 r i j * d2 r k l * d3 r m n⟩]

/-- lasci.py:1913-1967: the updates of `casdm3s[0]` and `casdm3s[3]` for two fragments. -/
def terms2same (s : Bool) (x : Nat × Nat) : List (Upd R) :=
  let (f, g) := x
  let d1 := fun r => F.dm1 g r s
  let d2 := if s then F.bb f else F.aa f
  [⟨.two, false, [f, f, f, f, g, g], arr6 fun i j k l m n => F.wsum fun r => d1 r m n * d2 r i j k l⟩,
   ⟨.five, true, [f, f, f, g, g, f], arr6 fun i j k n m l => F.wsum fun r => d1 r m n * d2 r i j k l⟩]

/-- lasci.py:1795-1800, 1812-1817, 1832-1835, 1850-1853, 1877-1880: the updates of `casdm3s[1]` (aab) for three fragments. -/
def terms3aab (x : Nat × Nat × Nat) : List (Upd R) :=
  let (f, g, h) := x
  let a1 := fun r => F.dm1 f r false; let b1 := fun r => F.dm1 f r true
  let a2 := fun r => F.dm1 g r false; let b2 := fun r => F.dm1 g r true
  let a3 := fun r => F.dm1 h r false; let b3 := fun r => F.dm1 h r true
  [⟨.none, false, [f, f, g, g, h, h], arr6 fun i j k l m n => F.wsum fun r => a1 r i j * a2 r k l * b3 r m n⟩,
   ⟨.none, false, [f, f, h, h, g, g], arr6 fun i j m n k l => F.wsum fun r => a1 r i j * b2 r k l * a3 r m n⟩,
   ⟨.none, false, [h, h, f, f, g, g], arr6 fun m n i j k l => F.wsum fun r => a1 r i j * b2 r k l * a3 r m n⟩,
   ⟨.none, false, [h, h, g, g, f, f], arr6 fun m n k l i j => F.wsum fun r => b1 r i j * a2 r k l * a3 r m n⟩,
   ⟨.none, false, [g, g, h, h, f, f], arr6 fun k l m n i j => F.wsum fun r => b1 r i j * a2 r k l * a3 r m n⟩,
   ⟨.none, false, [g, g, f, f, h, h], arr6 fun k l i j m n => F.wsum fun r => a1 r i j * a2 r k l * b3 r m n⟩,
   ⟨.none, true, [h, g, g, h, f, f], arr6 fun m l k n i j => F.wsum fun r => b1 r i j * a2 r k l * a3 r m n⟩,
   ⟨.none, true, [g, h, h, g, f, f], arr6 fun k n m l i j => F.wsum fun r => b1 r i j * a2 r k l * a3 r m n⟩,
   ⟨.none, true, [f, g, g, f, h, h], arr6 fun i l k j m n => F.wsum fun r => a1 r i j * a2 r k l * b3 r m n⟩,
   ⟨.none, true, [g, f, f, g, h, h], arr6 fun k j i l m n => F.wsum fun r => a1 r i j * a2 r k l * b3 r m n⟩,
   ⟨.none, true, [f, h, h, f, g, g], arr6 fun i n m j k l => F.wsum fun r => a1 r i j * a2 r k l * b3 r m n⟩,
   ⟨.none, true, [h, f, f, h, g, g], arr6 fun m j i n k l => F.wsum fun r => a1 r i j * a2 r k l * b3 r m n⟩]

/-- lasci.py:1915-1917, 1937-1939, 1954-1955, 1962-1963: the updates of `casdm3s[1]` (aab) for two fragments. -/
def terms2aab (x : Nat × Nat) : List (Upd R) :=
  let (f, g) := x
  let a1 := fun r => F.dm1 g r false; let b1 := fun r => F.dm1 g r true
  let aa := F.aa f; let ab := F.ab f
  [⟨.none, false, [f, f, f, f, g, g], arr6 fun i j k l m n => F.wsum fun r => b1 r m n * aa r i j k l⟩,
   ⟨.none, false, [f, f, g, g, f, f], arr6 fun i j m n k l => F.wsum fun r => a1 r m n * ab r i j k l⟩,
   ⟨.none, false, [g, g, f, f, f, f], arr6 fun m n i j k l => F.wsum fun r => a1 r m n * ab r i j k l⟩,
   ⟨.none, true, [g, f, f, g, f, f], arr6 fun m l k n i j => F.wsum fun r => a1 r m n * ab r k l i j⟩,
   ⟨.none, true, [f, g, g, f, f, f], arr6 fun k n m l i j => F.wsum fun r => a1 r m n * ab r k l i j⟩]

/-- lasci.py:1802-1807, 1819-1824, 1837-1840, 1855-1858, 1882-1885: the updates of `casdm3s[2]` (abb) for three fragments. -/
def terms3abb (x : Nat × Nat × Nat) : List (Upd R) :=
  let (f, g, h) := x
  let a1 := fun r => F.dm1 f r false; let b1 := fun r => F.dm1 f r true
  let a2 := fun r => F.dm1 g r false; let b2 := fun r => F.dm1 g r true
  let a3 := fun r => F.dm1 h r false; let b3 := fun r => F.dm1 h r true
  [⟨.none, false, [f, f, g, g, h, h], arr6 fun i j k l m n => F.wsum fun r => a1 r i j * b2 r k l * b3 r m n⟩,
   ⟨.none, false, [f, f, h, h, g, g], arr6 fun i j m n k l => F.wsum fun r => a1 r i j * b2 r k l * b3 r m n⟩,
   ⟨.none, false, [h, h, f, f, g, g], arr6 fun m n i j k l => F.wsum fun r => b1 r i j * b2 r k l * a3 r m n⟩,
   ⟨.none, false, [h, h, g, g, f, f], arr6 fun m n k l i j => F.wsum fun r => b1 r i j * b2 r k l * a3 r m n⟩,
   ⟨.none, false, [g, g, h, h, f, f], arr6 fun k l m n i j => F.wsum fun r => b1 r i j * a2 r k l * b3 r m n⟩,
   ⟨.none, false, [g, g, f, f, h, h], arr6 fun k l i j m n => F.wsum fun r => b1 r i j * a2 r k l * b3 r m n⟩,
   ⟨.none, true, [f, f, g, h, h, g], arr6 fun i j k n m l => F.wsum fun r => a1 r i j * b2 r k l * b3 r m n⟩,
   ⟨.none, true, [f, f, h, g, g, h], arr6 fun i j m l k n => F.wsum fun r => a1 r i j * b2 r k l * b3 r m n⟩,
   ⟨.none, true, [h, h, f, g, g, f], arr6 fun m n i l k j => F.wsum fun r => b1 r i j * b2 r k l * a3 r m n⟩,
   ⟨.none, true, [h, h, g, f, f, g], arr6 fun m n k j i l => F.wsum fun r => b1 r i j * b2 r k l * a3 r m n⟩,
   ⟨.none, true, [g, g, h, f, f, h], arr6 fun k l m j i n => F.wsum fun r => b1 r i j * a2 r k l * b3 r m n⟩,
   ⟨.none, true, [g, g, f, h, h, f], arr6 fun k l i n m j => F.wsum fun r => b1 r i j * a2 r k l * b3 r m n⟩]

/-- lasci.py:1922-1924, 1941-1943, 1957-1958, 1965-1966: the updates of `casdm3s[2]` (abb) for two fragments. -/
def terms2abb (x : Nat × Nat) : List (Upd R) :=
  let (f, g) := x
  let a1 := fun r => F.dm1 g r false; let b1 := fun r => F.dm1 g r true
  let ab := F.ab f; let bb := F.bb f
  [⟨.none, false, [f, f, f, f, g, g], arr6 fun i j k l m n => F.wsum fun r => b1 r m n * ab r i j k l⟩,
   ⟨.none, false, [f, f, g, g, f, f], arr6 fun i j m n k l => F.wsum fun r => b1 r m n * ab r i j k l⟩,
   ⟨.none, false, [g, g, f, f, f, f], arr6 fun m n i j k l => F.wsum fun r => a1 r m n * bb r i j k l⟩,
   ⟨.none, true, [f, f, f, g, g, f], arr6 fun i j k n m l => F.wsum fun r => b1 r m n * ab r i j k l⟩,
   ⟨.none, true, [f, f, g, f, f, g], arr6 fun i j m l k n => F.wsum fun r => b1 r m n * ab r i j k l⟩]

/-- lasci.py:1727-1972 `make_casdm3s`: `casdm3s[0]` and `casdm3s[3]`; `casdm3s[1]`; `casdm3s[2]`. `dm3` is that component of
`casdm3fs`. The updates of the four arrays are independent of each other. -/
def makeCasdm3Same (s : Bool) (dm3 : Nat → Arr R) : Arr R :=
  ((comb3 F.ncas.length).flatMap (F.terms3same s) ++ (perm2 F.ncas.length).flatMap (F.terms2same s)).foldl (Upd.apply F.ncas)
    (F.diag6 dm3 fun _ => 0)
@[inherit_doc makeCasdm3Same]
def makeCasdm3aab (dm3 : Nat → Arr R) : Arr R :=
  ((comb3 F.ncas.length).flatMap F.terms3aab ++ (perm2 F.ncas.length).flatMap F.terms2aab).foldl (Upd.apply F.ncas)
    (F.diag6 dm3 fun _ => 0)
@[inherit_doc makeCasdm3Same]
def makeCasdm3abb (dm3 : Nat → Arr R) : Arr R :=
  ((comb3 F.ncas.length).flatMap F.terms3abb ++ (perm2 F.ncas.length).flatMap F.terms2abb).foldl (Upd.apply F.ncas)
    (F.diag6 dm3 fun _ => 0)

end Frags2
end Verif.ProdRdm
