import Verif.Model.Fockspace
import Verif.Model.Np
import Mathlib.Data.Nat.Choose.Basic
/-!
# Model: products of fragment CI vectors (my_pyscf/lassi/op_o0.py)
-/
namespace Verif.Outer
open Verif.Np Verif.Fockspace Verif.Spec

/-- PySCF `cistring.sub_addrs (norb, nelec, range (lo, hi), sub_nelec)` for `sub_nelec ≠ 0` (external): the
addresses of the strings with `sub` electrons in the orbitals `lo ≤ p < hi`, ascending. -/
def subAddrs (norb nelec lo hi sub : Nat) : List Nat :=
  (List.range (strs norb nelec).length).filter fun k =>
    (List.range' lo (hi - lo)).countP (fun p => ((strs norb nelec).getD k 0).testBit p) == sub

/-- `np.intersect1d (a, b)`, for arrays that are ascending and free of duplicates, as those of `sub_addrs` are: the
common entries in ascending order. -/
def intersect1d (a b : List Nat) : List Nat := a.filter fun x => b.contains x

/-- One pass of the loop of `addr_outer_product` (op_o0.py:179-186). -/
def addrStep (norbF nelecF : List Nat) (addrs : List Nat) (i : Nat) : List Nat :=
  let hi := (norbF.take (i + 1)).sum
  let new := if nelecF.getD i 0 ≠ 0 then
    subAddrs norbF.sum nelecF.sum (hi - norbF.getD i 0) hi (nelecF.getD i 0) else []
  if addrs.length = 0 then new
  else if new.length > 0 then intersect1d addrs new
  else addrs

/-- `addr_outer_product` (op_o0.py:172-188). -/
def addrOuter (norbF nelecF : List Nat) : List Nat :=
  let addrs := (List.range norbF.length).foldl (addrStep norbF nelecF) []
  if addrs.length = 0 then [0] else addrs

/-- One fragment: an entry of each of the parallel lists `norb_f`, `nelec_f` and `ci_f` that
`_ci_outer_product` takes. -/
structure Frag (K : Type) where
  /-- number of orbitals -/
  norb : Nat
  /-- spin-up electrons -/
  na : Nat
  /-- spin-down electrons -/
  nb : Nat
  /-- CI vector or vectors -/
  ci : Nd K

variable {K : Type}

/-- `1 if ci.ndim<3 else ci.shape[0]` (op_o0.py:196). -/
def Frag.lroots (f : Frag K) : Nat := if f.ci.shape.length < 3 then 1 else f.ci.shape.getD 0 0

/-- `shape_f[i]` (op_o0.py:198-199); `cistring.num_strings` (external) is a binomial coefficient. -/
def Frag.shape (f : Frag K) : List Nat := [f.lroots, f.norb.choose f.na, f.norb.choose f.nb]

/-- `np.multiply.outer (a, b)`. -/
def outer [Mul K] (a b : Nd K) : Nd K :=
  ⟨a.shape ++ b.shape, fun t => a.get (t.take a.shape.length) * b.get (t.drop a.shape.length)⟩

/-- One pass of the loop that builds `ci_dp` (op_o0.py:209-214). -/
def dpStep [Mul K] (dp : Nd K) (f : Frag K) : Option (Nd K) := do
  let c ← f.ci.reshape f.shape
  ((outer dp c).transpose [0, 3, 1, 4, 2, 5]).reshape
    [dp.shape.getD 0 0 * f.shape.getD 0 0, dp.shape.getD 1 0 * f.shape.getD 1 0, dp.shape.getD 2 0 * f.shape.getD 2 0]

/-- `ci_dp` (op_o0.py:208-214): starts from the last fragment and goes down to the first. -/
def ciDp [Mul K] (fs : List (Frag K)) : Option (Nd K) :=
  match fs.reverse with
  | [] => none
  | l :: rest => do
    let dp ← l.ci.reshape l.shape
    rest.foldlM dpStep dp

/-- What `_ci_outer_product` computes before it returns its closures (op_o0.py:190-214). -/
structure Product (K : Type) where
  /-- `nprods` -/
  nprods : Nat
  /-- `nelec` -/
  nelec : Nat × Nat
  /-- `addrs_a` -/
  addrsA : List Nat
  /-- `addrs_b` -/
  addrsB : List Nat
  /-- `ci_dp` -/
  dp : Nd K

/-- `_ci_outer_product` (op_o0.py:190-214) for one rootspace. -/
def ciOuterProduct [Mul K] (fs : List (Frag K)) : Option (Product K) := do
  let dp ← ciDp fs
  return ⟨(fs.map Frag.lroots).prod, ((fs.map Frag.na).sum, (fs.map Frag.nb).sum),
    addrOuter (fs.map Frag.norb) (fs.map Frag.na), addrOuter (fs.map Frag.norb) (fs.map Frag.nb), dp⟩

/-- The `p`-th CI vector that `gen_ci_dp` yields (op_o0.py:217-234): zeros, with `ci[np.ix_(addrs_a,addrs_b)] = vec`.
`none` is NumPy's broadcasting error. The vector is given as a function of the two addresses. -/
def Product.gen [Zero K] (P : Product K) (p : Nat) : Option (Nat → Nat → K) :=
  if P.dp.shape.drop 1 = [P.addrsA.length, P.addrsB.length] then
    some fun x y =>
      if x ∈ P.addrsA ∧ y ∈ P.addrsB then P.dp.get [p, P.addrsA.idxOf x, P.addrsB.idxOf y] else 0
  else none

/-- `c1[np.ix_(addrs_a,addrs_b)]`. -/
def Product.gather (P : Product K) (c1 : Nat → Nat → K) : Nd K :=
  ⟨[P.addrsA.length, P.addrsB.length],
   fun t => c1 (P.addrsA.getD (t.getD 0 0) 0) (P.addrsB.getD (t.getD 1 0) 0)⟩

/-- `np.dot (ci_dp.reshape (nprods, -1), v.ravel ())`; `none` is NumPy's shape error. The result is a one-dimensional
array of length `nprods`. -/
def Product.dotFlat [AddCommMonoid K] [Mul K] (P : Product K) (v : Nd K) : Option (Nd K) := do
  let m ← P.dp.reshape [P.nprods, v.shape.prod]
  return ⟨[P.nprods], fun t => ∑ k ∈ Finset.range v.shape.prod, m.get [t.getD 0 0, k] * v.flat k⟩

/-- `np.tensordot (a, b, axes=((1,2),(s+1,s+3)))` for a three-dimensional `a`; `none` is NumPy's shape error. -/
def tensordot23 [AddCommMonoid K] [Mul K] (s : Nat) (a b : Nd K) : Option (Nd K) :=
  if a.shape.getD 1 0 = b.shape.getD (s + 1) 0 ∧ a.shape.getD 2 0 = b.shape.getD (s + 3) 0 then
    some ⟨a.shape.getD 0 0 :: (b.shape.take (s + 1) ++ ((b.shape.drop (s + 2)).take 1 ++ b.shape.drop (s + 4))),
      fun t => ∑ x ∈ Finset.range (a.shape.getD 1 0), ∑ y ∈ Finset.range (a.shape.getD 2 0),
        a.get [t.getD 0 0, x, y] *
          b.get ((t.drop 1).take (s + 1) ++ [x] ++ (((t.drop 1).drop (s + 1)).take 1) ++ [y] ++ (t.drop 1).drop (s + 2))⟩
  else none

/-- `[x for s,t in zip (c1_dp.shape[skipdims:],shape[1:]) for x in (s//t, t)]` (op_o0.py:243). -/
def splitShape (s t : List Nat) : List Nat := (s.zip t).flatMap fun x => [x.1 / x.2, x.2]

/-- One pass of the loop of `dotter` (op_o0.py:242-254). The state is `c1_dp` and `skipdims`. -/
def dotStep [AddCommMonoid K] [Mul K] (skip : Nat → Bool) (st : Nd K × Nat) (fi : Frag K × Nat) : Option (Nd K × Nat) := do
  let (c, s) := st
  let (f, ifrag) := fi
  let c ← c.reshape (c.shape.take s ++ splitShape (c.shape.drop s) (f.shape.drop 1))
  if skip ifrag then
    return (c.transpose ([0, s + 1, s + 3] ++ List.range' 1 s ++ [s + 2]), s + 2)
  else do
    let r ← f.ci.reshape f.shape
    let c ← tensordot23 s r c
    let c ← c.reshape (c.shape.getD 0 0 * c.shape.getD 1 0 :: c.shape.drop 2)
    return (c, s)

/-- `dotter` of one rootspace (op_o0.py:235-256). `skip = none` is `skip=None`; otherwise the set of fragments to leave
uncontracted. -/
def Product.dotter [AddCommMonoid K] [Mul K] (P : Product K) (fs : List (Frag K)) (c1 : Nat → Nat → K) (nelec1 : Nat × Nat)
    (skip : Option (Nat → Bool)) : Option (Nd K) :=
  if nelec1 ≠ P.nelec then some ⟨[P.nprods], fun _ => 0⟩
  else match skip with
  | none => P.dotFlat (P.gather c1)
  | some sk => do
    let g := P.gather c1
    let (c, s) ← fs.zipIdx.foldlM (dotStep sk) ((⟨1 :: g.shape, fun t => g.get (t.drop 1)⟩ : Nd K), 1)
    c.reshape (c.shape.take s)

end Verif.Outer
