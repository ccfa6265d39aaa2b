import Verif.Model.LstdmKernel
/-!
# Model of `HamS2Ovlp` (/repo/my_pyscf/lassi/op_o1/hams2ovlp.py)

Hamiltonian and spin-squared matrices in the basis of all model states, computed row by row of the excitation tables without the
transition density matrices.

Simplifications: those of Model/LstdmKernel.lean. Spin multiplicities are not given (`smult_fr = None`): every spin manifold has one
member, `self.spman[key]` is the pair of rootspaces of the key (no collision of Python's `hash`; the order of the rows, which follows
these hashes, is that of the tables), `highm=True` has no effect (frag.py:232-234, 255-257), and `reduce_spin` (opterm.py:88-93) adds
the components. The element of an operator array for given local roots of the nonspectator fragments is evaluated with the model
states that have these local roots, and local root 0 of the spectators, which the functions below do not address.
-/
namespace Verif.Lstdm
open Verif.Spec (Inter)
open Verif.Signs Verif.Exc Verif.Addr

/-- hams2ovlp.py:38-40: `self.h1` (spin-separated) and `self.h2`. -/
structure Ham (K : Type) where
  h1 : Nat → Nat → Nat → K
  h2 : Nat → Nat → Nat → Nat → K

variable {K : Type} [Field K]

/-- hams2ovlp.py:206-213 `get_ham_2q` with two fragments. -/
def Ham.two (H : Ham K) (nlas : List Nat) (i j s x y : Nat) : K := H.h1 s ((getRange nlas i).1 + x) ((getRange nlas j).1 + y)

/-- hams2ovlp.py:206-217 `get_ham_2q` with four fragments. -/
def Ham.four (H : Ham K) (nlas : List Nat) (i j k l x y z w : Nat) : K :=
  H.h2 ((getRange nlas i).1 + x) ((getRange nlas j).1 + y) ((getRange nlas k).1 + z) ((getRange nlas l).1 + w)

/-- frag.py:390-395: the transformation `cs` of the spin index, sum and difference. -/
def cs (d : D1 K) : D1 K := fun c a b => if c = 0 then d 0 a b + d 1 a b else d 0 a b - d 1 a b

namespace Lstdm
variable (L : Lstdm K) (H : Ham K)

/-- Number of orbitals of a fragment. -/
def no (f : Nat) : Nat := L.nlas.getD f 0

/-- hams2ovlp.py:219-239 `_crunch_1d_`: Hamiltonian and spin-squared operator. -/
def ham1d (bra ket i : Nat) : Option (K × Option K) :=
  let n := L.no i
  let d1s := fun s y x => (L.ints i).get1Dm1 bra ket s x y
  let d2s := (L.ints i).get1Dm2 bra ket
  let d2 := fun p q r s => ∑ st ∈ Finset.range 4, d2s st q p s r
  let ham := ∑ s ∈ Finset.range 2, ∑ y ∈ Finset.range n, ∑ x ∈ Finset.range n, d1s s y x * H.two L.nlas i i s y x
  let ham := ham + (∑ p ∈ Finset.range n, ∑ q ∈ Finset.range n, ∑ r ∈ Finset.range n, ∑ s ∈ Finset.range n,
    d2 p q r s * H.four L.nlas i i i i p q r s) * (1 / 2)
  let s2 := 3 * (∑ s ∈ Finset.range 2, ∑ x ∈ Finset.range n, d1s s x x) / 4
  let m2 := fun st => (∑ p ∈ Finset.range n, ∑ r ∈ Finset.range n, d2s st p p r r) / 4
  let s2 := s2 + (m2 0 + m2 3 - m2 1 - m2 2)
  let s2 := s2 - (∑ p ∈ Finset.range n, ∑ q ∈ Finset.range n, (d2s 1 p q q p + d2s 2 p q q p)) / 2
  some (ham, some s2)

/-- hams2ovlp.py:241-265 `_crunch_2d_`. -/
def ham2d (bra ket i j : Nat) : Option (K × Option K) :=
  let ni := L.no i
  let nj := L.no j
  let dii := cs ((L.ints i).get1Dm1 bra ket)
  let djj := cs ((L.ints j).get1Dm1 bra ket)
  let h_ := H.four L.nlas j j i i
  let h_ := fun z w => ∑ a ∈ Finset.range ni, ∑ b ∈ Finset.range ni, dii 0 a b * h_ z w b a
  let ham0 := ∑ x ∈ Finset.range nj, ∑ y ∈ Finset.range nj, djj 0 x y * h_ y x
  let hs := fun x0 x1 x2 x3 => H.four L.nlas j i i j x0 x3 x2 x1 / 2
  let ex := fun s => ∑ x ∈ Finset.range nj, ∑ y ∈ Finset.range nj, djj s x y *
    (∑ a ∈ Finset.range ni, ∑ b ∈ Finset.range ni, dii s a b * hs y x b a)
  let mi := ∑ a ∈ Finset.range ni, dii 1 a a
  let mj := ∑ x ∈ Finset.range nj, djj 1 x x
  some ((ham0 - ex 0) + (0 - ex 1), some (0 + mj * mi / 2))

/-- hams2ovlp.py:267-303 `_crunch_1c_`. -/
def ham1c (bra ket i j s1 : Nat) : Option (K × Option K) := do
  let ni := L.no i
  let nj := L.no j
  let f1 ← fermionDesShuffle (L.nelecF bra) [i, j] i
  let f2 ← fermionDesShuffle (L.nelecF ket) [i, j] j
  let fac : K := ((f1 * f2 : Int) : K)
  let p := (L.ints i).get1P bra ket s1
  let pph := fun a b c => ∑ t ∈ Finset.range 2, (L.ints i).get1Pph bra ket s1 t a b c
  let h := (L.ints j).get1H bra ket s1
  let phh := fun a b c => ∑ t ∈ Finset.range 2, (L.ints j).get1Phh bra ket s1 t a b c
  let e1 := ∑ y ∈ Finset.range nj, h y * ∑ x ∈ Finset.range ni, p x * H.two L.nlas j i s1 y x
  let e2 := ∑ y ∈ Finset.range nj, h y * ∑ a ∈ Finset.range ni, ∑ b ∈ Finset.range ni, ∑ c ∈ Finset.range ni,
    pph a b c * H.four L.nlas j i i i y a c b
  let e3 := ∑ a ∈ Finset.range nj, ∑ b ∈ Finset.range nj, ∑ c ∈ Finset.range nj, phh a b c *
    ∑ x ∈ Finset.range ni, p x * H.four L.nlas j j j i b a c x
  pure ((e1 + e2 + e3) * fac, none)

/-- hams2ovlp.py:305-337 `_crunch_1c1d_`. -/
def ham1c1d (bra ket i j k s1 : Nat) : Option (K × Option K) := do
  let ni := L.no i
  let nj := L.no j
  let nk := L.no k
  let f1 ← fermionDesShuffle (L.nelecF bra) [i, j, k] i
  let f2 ← fermionDesShuffle (L.nelecF ket) [i, j, k] j
  let fac : K := ((f1 * f2 : Int) : K)
  let p := (L.ints i).get1P bra ket s1
  let h := (L.ints j).get1H bra ket s1
  let dk := cs ((L.ints k).get1Dm1 bra ket)
  let dk : D1 K := fun c a b => if c = 0 then dk 0 a b else dk 1 a b * (-1) ^ s1
  let h_ := fun z w => ∑ y ∈ Finset.range nj, h y * ∑ x ∈ Finset.range ni, p x * H.four L.nlas k k j i z w y x
  let ham0 := ∑ a ∈ Finset.range nk, ∑ b ∈ Finset.range nk, dk 0 a b * h_ b a
  let hT := fun x0 x1 x2 x3 => H.four L.nlas j k k i x2 x0 x1 x3
  let h_ := fun z w => ∑ y ∈ Finset.range nj, h y * ∑ x ∈ Finset.range ni, p x * hT z w y x
  let ex := fun s => ∑ a ∈ Finset.range nk, ∑ b ∈ Finset.range nk, dk s a b / 2 * h_ a b
  pure ((ham0 - ex 0) * fac + (0 - ex 1) * fac, none)

/-- hams2ovlp.py:339-367 `_crunch_1s_`. -/
def ham1s (bra ket i j : Nat) : Option (K × Option K) :=
  let ni := L.no i
  let nj := L.no j
  let fac : K := -1
  let sp := (L.ints i).get1Sp bra ket
  let sm := (L.ints j).get1Sm bra ket
  let hT := fun x0 x1 x2 x3 => H.four L.nlas j i i j x0 x3 x2 x1
  let h_ := fun z w => ∑ a ∈ Finset.range ni, ∑ b ∈ Finset.range ni, sp a b * hT z w a b
  let ham := ∑ x ∈ Finset.range nj, ∑ y ∈ Finset.range nj, sm x y * h_ x y
  let s2 := -fac * ((∑ x ∈ Finset.range nj, sm x x) * ∑ a ∈ Finset.range ni, sp a a)
  some (ham * fac, some s2)

/-- hams2ovlp.py:369-402 `_crunch_1s1c_`. -/
def ham1s1c (bra ket i j k s1 : Nat) : Option (K × Option K) := do
  let s2 := 1 - s1
  let ni := L.no i
  let nj := L.no j
  let nk := L.no k
  let f1 ← fermionDesShuffle (L.nelecF bra) [i, j, k] i
  let f2 ← fermionDesShuffle (L.nelecF ket) [i, j, k] j
  let fac : K := ((-1 * f1 * f2 : Int) : K)
  let p := (L.ints i).get1P bra ket s1
  let h := (L.ints j).get1H bra ket s2
  let hT := fun x0 x1 x2 x3 => H.four L.nlas j k k i x2 x0 x1 x3
  let h_ := fun z w => ∑ y ∈ Finset.range nj, h y * ∑ x ∈ Finset.range ni, p x * hT z w y x
  let dkk := if s1 = 0 then (L.ints k).get1Sm bra ket else (L.ints k).get1Sp bra ket
  pure ((∑ a ∈ Finset.range nk, ∑ b ∈ Finset.range nk, dkk a b * h_ a b) * fac, none)

/-- hams2ovlp.py:440-444: signs of the annihilators, fragments `j`, `l` of the ket. -/
def facHh (ket i j k l : Nat) : Option Int :=
  if j ≠ l then do
    let f1 ← fermionDesShuffle (L.nelecF ket) [i, j, k, l] j
    let f2 ← fermionDesShuffle (L.nelecF ket) [i, j, k, l] l
    pure ((if j > l then -1 else 1) * f1 * f2)
  else some 1

/-- hams2ovlp.py:445-449: signs of the creators, fragments `i`, `k` of the bra. -/
def facPp (bra i j k l : Nat) : Option Int :=
  if i ≠ k then do
    let f1 ← fermionDesShuffle (L.nelecF bra) [i, j, k, l] i
    let f2 ← fermionDesShuffle (L.nelecF bra) [i, j, k, l] k
    pure ((if i > k then -1 else 1) * f1 * f2)
  else some 1

/-- hams2ovlp.py:466-483: contraction of one component `ham[c]`, whose axes belong to the fragments `l`, `j`, `i`, `k`. -/
def contract2c (bra ket i j k l s2lt s11 s12 : Nat) (h : Nat → Nat → Nat → Nat → K) : K :=
  let ni := L.no i
  let nj := L.no j
  let nk := L.no k
  let nl := L.no l
  let h_ : Nat → Nat → K :=
    if i = k then fun z w => ∑ x ∈ Finset.range ni, ∑ y ∈ Finset.range ni, (L.ints i).get1Pp bra ket s2lt x y * h z w x y
    else fun z w => ∑ x ∈ Finset.range ni, (L.ints i).get1P bra ket s11 x *
      ∑ y ∈ Finset.range nk, (L.ints k).get1P bra ket s12 y * h z w x y
  if j = l then ∑ x ∈ Finset.range nj, ∑ y ∈ Finset.range nj, (L.ints j).get1Hh bra ket s2lt x y * h_ x y
  else ∑ x ∈ Finset.range nl, (L.ints l).get1H bra ket s12 x * ∑ y ∈ Finset.range nj, (L.ints j).get1H bra ket s11 y * h_ x y

/-- hams2ovlp.py:404-492 `_crunch_2c_`; `i j k l` are the arguments `a i b j` of the code. -/
def ham2c (bra ket i j k l s2lt : Nat) : Option (K × Option K) := do
  let s2 := [0, 1, 3].getD s2lt 0
  let s11 := s2 / 2
  let s12 := s2 % 2
  let f1 ← L.facHh ket i j k l
  let f2 ← L.facPp bra i j k l
  let fac : K := (if (i, j, s11) = (k, l, s12) then 1 / 2 else 1) * ((f1 * f2 : Int) : K)
  let hj := fun z w x y => H.four L.nlas l k j i z y w x
  let hk := fun z w x y => H.four L.nlas l i j k z x w y
  let contract := L.contract2c bra ket i j k l s2lt s11 s12
  if s11 ≠ s12 ∧ (i = k ∨ j = l) then
    let fac := fac * (1 / 2)
    pure (contract (fun z w x y => hj z w x y + hk z w x y) * fac + contract (fun z w x y => hj z w x y - hk z w x y) * fac, none)
  else if s11 = s12 ∧ i ≠ k ∧ j ≠ l then
    pure (contract (fun z w x y => hj z w x y - hk z w x y) * fac, none)
  else pure (contract hj * fac, none)

/-- hams2ovlp.py:165-173: the function called for a row. -/
def hamRow (bra ket : Nat) : Row → Option (K × Option K)
  | .d1 i => L.ham1d H bra ket i
  | .d2 i j => L.ham2d H bra ket i j
  | .c1 i j s => L.ham1c H bra ket i j s
  | .c1d1 i j k s => L.ham1c1d H bra ket i j k s
  | .s1 i j => L.ham1s H bra ket i j
  | .s1c1 i j k s => L.ham1s1c H bra ket i j k s
  | .c2 i j k l s => L.ham2c H bra ket i j k l s

/-- The third value returned by the functions: the fragments in the order of the axes. -/
def Row.axes : Row → List Nat
  | .d1 i => [i]
  | .d2 i j => [j, i]
  | .c1 i j _ => [j, i]
  | .c1d1 i j k _ => [k, j, i]
  | .s1 i j => [j, i]
  | .s1c1 i j k _ => [k, j, i]
  | .c2 i j k l _ => [l, j, i, k]

end Lstdm

namespace Kern
variable (k : Kern K)

/-- hams2ovlp.py:129-132 `inv_unique` and 151-163: the fragments of the axes after the transposition, in descending order. -/
def canonical (axes : List Nat) : List Nat := (axes.eraseDups).mergeSort (fun a b => decide (b ≤ a))

/-- Position `t` of the flattened (C order) axes of the fragments `frs`: the model state of rootspace `r` in which these fragments
have the local roots of the position and all others local root 0. -/
def flatState (r : Nat) : List Nat → Nat → Nat
  | [], _ => k.offs0 r
  | f :: frs, t =>
    let rest := (frs.map (fun g => (k.cols.getD r []).getD g 0)).prod
    flatState r frs (t % rest) + k.stride r f * (t / rest)

/-- A matrix in the basis of the model states. -/
abbrev Mat (K : Type) := Nat → Nat → K

/-- hams2ovlp.py:175-179 `_put_op_`: `op[bra,ket] += wgt * opval` with arrays of indices. All elements are read before any is
written, so that of several entries with the same indices only the last counts. -/
def putOp (op : Mat K) (idx : List (Nat × Nat × K)) (val : K) : Mat K := fun b c =>
  match idx.reverse.find? (fun x => x.1 == b && x.2.1 == c) with
  | some x => op b c + x.2.2 * val
  | none => op b c

/-- stdm.py:602-646 `_get_spec_addr_ovlp`: all images of the pair of states. -/
def specAddr (cache : List ((Nat × Nat) × List (Nat × Nat × K))) (b c : Nat) : List (Nat × Nat × K) :=
  cache.flatMap (fun e => e.2.map (fun x => (x.1 + k.dotEnv b e.1.1, x.2.1 + k.dotEnv c e.1.2, x.2.2)))

/-- hams2ovlp.py:188-204 `_put_ham_s2_spincase_`: one pass of the loop. -/
def putHam (H : Ham K) (u : ExcRow) (cache : List ((Nat × Nat) × List (Nat × Nat × K))) (nket : Nat) (acc : Mat K × Mat K)
    (x : (Nat × Nat) × Nat) : Option (Mat K × Mat K) := do
  let frs := canonical u.2.axes
  let v ← k.toLstdm.hamRow H (k.flatState u.1.1 frs (x.2 / nket)) (k.flatState u.1.2 frs (x.2 % nket)) u.2
  let idx := k.specAddr cache x.1.1 x.1.2
  let s2 := match v.2 with
    | some m => putOp acc.2 idx m
    | none => acc.2
  pure (putOp acc.1 idx v.1, s2)

/-- hams2ovlp.py:165-173, 181-204 `_crunch_env_`, `_put_ham_s2_`. -/
def hamEnv (H : Ham K) (acc : Mat K × Mat K) (u : ExcRow) : Option (Mat K × Mat K) := do
  let imgs ← k.lookup (u.1, u.2.inv)
  let cache ← imgs.mapM (fun im => (k.specAddrOvlp im.1 im.2 u.2.inv).map (fun l => (im, l)))
  let braRng := k.addrRange u.1.1 u.2.inv
  let ketRng := k.addrRange u.1.2 u.2.inv
  ((braRng.flatMap (fun b => ketRng.map (fun c => (b, c)))).zipIdx).foldlM (k.putHam H u cache ketRng.length) acc

/-- hams2ovlp.py:104-127 `kernel` (the first two matrices returned), with `_crunch_all_` (stdm.py:1071-1083) and `_add_transpose_`
(hams2ovlp.py:94-96). -/
def hamKernel (H : Ham K) : Option (Mat K × Mat K) :=
  ((k.tables.flatMap k.findUniqueExc).foldlM (k.hamEnv H) (fun _ _ => 0, fun _ _ => 0)).map
    (fun acc => (fun b c => acc.1 b c + acc.1 c b, fun b c => acc.2 b c + acc.2 c b))

end Kern
end Verif.Lstdm
