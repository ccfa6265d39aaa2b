import Verif.Spec.HalfOp
import Verif.Model.CplxCi
/-!
# Specification: link tables, schedules of the threads, and what is assumed of PySCF's real routines
-/
namespace Verif.Spec.CplxCi
open Verif.Spec.Tdm Verif.Spec.FciRdm Verif.Spec.HalfOp Verif.FciRdm Verif.Fockspace Verif.HalfOp Verif.CplxCi
open Verif.Spec.Fsucc (nAbove)

/-- The excitations `a'i` of the string `D`: the resulting string and its sign, in the order of `i` and `a`. -/
def links (n k s : Nat) : List Lk :=
  let D := (strs n k).getD s 0
  (List.range n).flatMap fun i => ((List.range n).filter fun a => D.testBit i && !(D ^^^ 2 ^ i).testBit a).map fun a =>
    ⟨a, i, (strs n k).idxOf (D ^^^ 2 ^ i ^^^ 2 ^ a), (-1) ^ (nAbove n D i + nAbove n (D ^^^ 2 ^ i) a)⟩

/-- A link table of PySCF (`cistring.gen_linkstr_index`) for `k` electrons in `n` orbitals: each string has each of its excitations once,
in any order. -/
def LinkTable (n k : Nat) (la : Tab) : Prop := ∀ s < (strs n k).length, (la s).Perm (links n k s)

/-- A schedule that OpenMP allows for a loop over the rows `lo ib, …, na - 1`: each iteration happens once, on one of the threads, and each
thread enters the critical section once. -/
structure Allowed (lo : Nat → Nat) (na : Nat) (S : Sched) : Prop where
  order : ∀ ib, (S.order ib).Perm (List.range' (lo ib) (na - lo ib))
  tid : ∀ ib s, S.tid ib s < S.threads
  crit : ∀ ib, (S.crit ib).Perm (List.range S.threads)

/-- The real or the imaginary part of each nonzero coefficient is large enough for its square to exceed the threshold. -/
def Resolved (thr : ℝ) (na nb : Nat) (c : Arr ℂ) : Prop :=
  ∀ i < na, ∀ j < nb, c i j = 0 ∨ thr < (c i j).re ^ 2 ∨ thr < (c i j).im ^ 2

/-- The documented results of PySCF's real routines without permutational symmetry. -/
structure RealContracts (P : RealOps) : Prop where
  c1 : ∀ f c n e, Holds n e (P.c1 f c n e) (oneE n (fun _ => f) (vec n e c))
  c2 : ∀ g c n e, Holds n e (P.c2 g c n e) (twoE n (fun _ _ p q r u => g r u p q) (vec n e c))

/-- Routines with these results. -/
noncomputable def exactReal : RealOps where
  c1 f c n e := arr n e (oneE n (fun _ => f) (vec n e c))
  c2 g c n e := arr n e (twoE n (fun _ _ p q r u => g r u p q) (vec n e c))

theorem exactReal_contracts : RealContracts exactReal :=
  ⟨fun f c n e => holds_arr n e (oneE n (fun _ => f) (vec n e c)),
   fun g c n e => holds_arr n e (twoE n (fun _ _ p q r u => g r u p q) (vec n e c))⟩

/-- The symmetry of electron-repulsion integrals that complex orbitals leave: exchange of the two electrons. -/
def PairSym (g : M4 ℂ) : Prop := ∀ p q r u, g p q r u = g r u p q

/-- A vector with as many spin-up as spin-down electrons that does not change when the two spins are exchanged. -/
def SpinSym (n k : Nat) (c : Arr ℂ) : Prop := ∀ i < (strs n k).length, ∀ j < (strs n k).length, c i j = c j i

/-- `⟨ψ| χ⟩` for complex vectors. -/
noncomputable def dot (n : Nat) (ψ χ : Vec ℂ) : ℂ := ovl n (fun A B => star (ψ A B)) χ

end Verif.Spec.CplxCi
