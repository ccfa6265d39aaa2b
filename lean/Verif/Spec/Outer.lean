import Verif.Spec.Fockspace
import Verif.Spec.Radix
import Verif.Model.Outer
import Mathlib.Algebra.BigOperators.Group.Finset.Basic
/-!
# Specification: product states

A string of one spin is a bit pattern over all orbitals; the orbitals of the fragments are consecutive blocks. CI vectors are
stored by *address*: the strings with a given number of electrons are numbered in ascending order.
-/
namespace Verif.Spec.Outer
open Verif.Spec.Fsucc Verif.Spec.Fockspace

/-- The address of the string `D` among the strings of `norb` orbitals with the same number of electrons: how many of
those precede it. -/
def addrOf (norb D : Nat) : Nat :=
  ((Finset.range D).filter fun E => nOcc 0 norb E = nOcc 0 norb D).card

/-- The part of the string `D` in fragment `f`. -/
def fragStr (norbF : List Nat) (f D : Nat) : Nat := D / 2 ^ fragStart norbF f % 2 ^ norbF.getD f 0

example : addrOf 4 5 = 1 ∧ addrOf 4 3 = 0 ∧ addrOf 4 12 = 5 ∧ fragStr [2, 3] 1 13 = 3 ∧ fragStr [2, 3] 0 13 = 1 := by
  decide

end Verif.Spec.Outer

namespace Verif.Outer
variable {K : Type}

/-- Coefficient `[x, y]` of vector `k` of a fragment. -/
def Frag.coeff (f : Frag K) (k x y : Nat) : K := if f.ci.shape.length < 3 then f.ci.get [x, y] else f.ci.get [k, x, y]

/-- number of spin-up strings -/
def Frag.dA (f : Frag K) : Nat := f.norb.choose f.na
/-- number of spin-down strings -/
def Frag.dB (f : Frag K) : Nat := f.norb.choose f.nb

/-- The CI array of the fragment has the dimensions it must have. -/
def Frag.OK (f : Frag K) : Prop :=
  f.na ≤ f.norb ∧ f.nb ≤ f.norb ∧ (f.ci.shape = [f.dA, f.dB] ∨ ∃ l, f.ci.shape = [l, f.dA, f.dB])

end Verif.Outer

namespace Verif.Spec.Outer
open Verif.Spec.Fsucc Verif.Spec.Fockspace Verif.Outer
variable {K : Type} [CommRing K]

/-- The product of vectors `t` of the fragments `fs`: its coefficient on the determinant with spin-up string `A` and spin-down
string `B`. -/
def prodState (fs : List (Frag K)) (t : List Nat) (A B : Nat) : K :=
  if fragOcc (fs.map Frag.norb) A = fs.map Frag.na ∧ fragOcc (fs.map Frag.norb) B = fs.map Frag.nb then
    ∏ f : Fin fs.length, (fs.get f).coeff (t.getD f 0) (addrOf (fs.get f).norb (fragStr (fs.map Frag.norb) f A))
      (addrOf (fs.get f).norb (fragStr (fs.map Frag.norb) f B))
  else 0

/-- The number of orbitals in which two strings differ. -/
def diffBits (N A B : Nat) : Nat := ((Finset.range N).filter fun p => A.testBit p ≠ B.testBit p).card

/-- All rootspaces are products of well-formed fragments with the same orbitals. -/
structure Wf (ns : List Nat) (spaces : List (List (Frag K))) : Prop where
  ne : ns ≠ []
  norb : ∀ fs ∈ spaces, fs.map Frag.norb = ns
  ok : ∀ fs ∈ spaces, ∀ f ∈ fs, f.OK

/-- The position of vectors `t` of rootspace `s` among all products. -/
def pos (spaces : List (List (Frag K))) (s : Nat) (t : List Nat) : Nat :=
  ((spaces.take s).map fun fs => (fs.map Frag.lroots).prod).sum + posF ((spaces.getD s []).map Frag.lroots) t

end Verif.Spec.Outer
