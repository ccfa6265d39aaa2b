import Verif.Model.Signs
import Mathlib.Algebra.Ring.Defs
/-!
# Model of the Fock-space tools (/repo/exploratory/citools/fockspace.py)

A Fock-space vector of one root is a function of the spin-up and spin-down determinant strings (as numbers), a
fixed-particle-number vector is a function of the two string addresses. The leading root axis is independent.
-/
namespace Verif.Fockspace
open Verif.Signs

/-- fockspace.py:9 `MAX_NORB`. -/
def maxNorb : Nat := 24

/-- fockspace.py:10-12: the table `ADDRS_NELEC` after `k` turns of the loop (the code takes `k = MAX_NORB`); the
entries are at most 24, so `uint8` does not overflow. -/
def addrsNelec : Nat → List Nat
  | 0 => [0]
  | k + 1 => addrsNelec k ++ (addrsNelec k).map (· + 1)

/-- PySCF `cistring.addrs2str (norb, nelec, range (num_strings))` (external): the strings with `nelec` of the lowest
`norb` bits set, in ascending order. -/
def strs (norb nelec : Nat) : List Nat :=
  (List.range (2 ^ norb)).filter fun D => (List.range norb).countP (fun p => D.testBit p) == nelec

/-- `ci1[sa, sb] = x`. -/
def set2 {K : Type} (f : Nat → Nat → K) (sa sb : Nat) (x : K) : Nat → Nat → K :=
  fun A B => if A = sa ∧ B = sb then x else f A B

/-- fockspace.py:14-25 `hilbert2fock`; `none` = AssertionError of line 15. -/
def hilbert2fock {K : Type} [Zero K] (norb na nb : Nat) (ci : Nat → Nat → K) : Option (Nat → Nat → K) :=
  if norb ≤ maxNorb then
    some ((strs norb na).zipIdx.foldl (fun f sa => (strs norb nb).zipIdx.foldl (fun f sb =>
      set2 f sa.1 sb.1 (ci sa.2 sb.2)) f) (fun _ _ => 0))
  else none

/-- fockspace.py:27-38 `fock2hilbert`. -/
def fock2hilbert {K : Type} (norb na nb : Nat) (ci : Nat → Nat → K) : Option (Nat → Nat → K) :=
  if norb ≤ maxNorb then
    some (fun ia ib => ci ((strs norb na).getD ia 0) ((strs norb nb).getD ib 0))
  else none

/-- fockspace.py:177-185 `number_operator`. -/
def numberOperator {K : Type} [Ring K] (norb : Nat) (ci : Nat → Nat → K) :
    Option ((Nat → Nat → K) × (Nat → Nat → K)) :=
  (List.range (norb + 1)).foldlM (fun st na => (List.range (norb + 1)).foldlM (fun st nb => do
    let ciH ← fock2hilbert norb na nb ci
    let a ← hilbert2fock norb na nb (fun x y => (na : K) * ciH x y)
    let b ← hilbert2fock norb na nb (fun x y => (nb : K) * ciH x y)
    pure ((fun A B => st.1 A B + a A B), (fun A B => st.2 A B + b A B))) st) ((fun _ _ => 0), (fun _ _ => 0))

/-- fockspace.py:161-169 `hilbert_sector_weights`: the list `n_weights` of one root (the multiplicity-resolved weights
come from the external CSF transformer). -/
def sectorWeights {K : Type} [Ring K] (norb : Nat) (ci : Nat → Nat → K) : Option (List K) :=
  ((List.range (norb + 1)).flatMap fun na => (List.range (norb + 1)).map fun nb => (na, nb)).mapM fun n => do
    let ciH ← fock2hilbert norb n.1 n.2 ci
    pure ((List.range (strs norb n.1).length).map fun ia =>
      ((List.range (strs norb n.2).length).map fun ib => ciH ia ib * ciH ia ib).sum).sum

/-- fockspace.py:77-81: the electron numbers of each fragment in one determinant string. -/
def nelecF : List Nat → Nat → List Nat
  | [], _ => []
  | n :: l, addr => (addrsNelec maxNorb).getD (addr % 2 ^ n) 0 :: nelecF l (addr / 2 ^ n)

/-- fockspace.py:40-89 `fermion_spin_shuffle`: one element of the table. Grouping the determinants by their electron
numbers (lines 82-87) only avoids repeated evaluations. `int8` arithmetic does not overflow: the exchanges counted are
at most 66. -/
def fockSpinShuffle (norb : Nat) (norbF : List Nat) (A B : Nat) : Option Int :=
  if norb * 2 ≤ maxNorb then fermionSpinShuffle (nelecF norbF A) (nelecF norbF B) else none

/-- fockspace.py:91-133 `fermion_frag_shuffle`: one element of the table, `uint8` products wrapping at 256. For
`j = norb` the code returns the number 1 instead of an array. -/
def fockFragShuffle (norb i j D : Nat) : Option Int :=
  if norb ≤ maxNorb ∧ i < j then
    if j = norb then some 1
    else
      let p := D / 2 ^ i
      let q := p / 2 ^ (j - i)
      let p := p % 2 ^ (j - i)
      let nperms := (addrsNelec maxNorb).getD p 0 * (addrsNelec maxNorb).getD q 0 % 256
      some (if nperms % 2 = 0 then 1 else -1)
  else none

/-- fockspace.py:143-148: one turn of the loop of `onv_str`; the conditions test bit `iorb` of `stra & strb` etc. -/
def onvStep (stra strb : Nat) (s : List Char) (iorb : Nat) : List Char :=
  let a := stra.testBit iorb
  let b := strb.testBit iorb
  let s := if a && b then '2' :: s else s
  let s := if !a && !b then '0' :: s else s
  let s := if a && !b then 'a' :: s else s
  if !a && b then 'b' :: s else s

/-- fockspace.py:135-150 `onv_str`; `none` = AssertionError of line 149. -/
def onvStr (stra strb norb : Nat) : Option (List Char) :=
  let s := (List.range norb).foldl (onvStep stra strb) []
  if s.length = norb then some s else none

end Verif.Fockspace
