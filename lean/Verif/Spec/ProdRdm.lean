import Mathlib.Algebra.BigOperators.Group.List.Basic
import Mathlib.Algebra.Ring.Defs
import Mathlib.Data.List.Dedup
/-!
# Specification: density matrices of a product of fragment states

A fragment state is the functional that gives the expectation value of every word of ladder operators. In a product of fragment
states the operators are sorted by fragment (with a minus sign for every exchange of two operators of different fragments) and
the expectation values multiply.
-/
namespace Verif.Spec.ProdRdm
variable {R : Type*} [CommRing R]

/-- A ladder operator: creation or destruction, of orbital `orb` of fragment `frag` with spin `beta`. -/
structure Op where
  cre : Bool
  frag : Nat
  orb : Nat
  beta : Bool
deriving DecidableEq

/-- Number of pairs of operators that are not in the order of their fragments. -/
def inversions : List Op → Nat
  | [] => 0
  | x :: w => w.countP (fun y => decide (y.frag < x.frag)) + inversions w

/-- Expectation value of the word `w` in the product of the fragment states `E`. -/
def expect (E : Nat → List Op → R) (w : List Op) : R :=
  (-1) ^ inversions w * ((w.map Op.frag).dedup.map fun f => E f (w.filter fun x => x.frag == f)).prod

/-- A fragment state has definite numbers of alpha and of beta electrons: the expectation value of a word vanishes unless it
creates as many electrons of each spin as it destroys. -/
def Conserves (E : Nat → List Op → R) : Prop :=
  ∀ f w b, (w.countP fun x => x.cre && x.beta == b) ≠ (w.countP fun x => !x.cre && x.beta == b) → E f w = 0

/-- Two creation operators anticommute, and so do two destruction operators. -/
def Anticommutes (E : Nat → List Op → R) : Prop :=
  ∀ f w x y w', x.cre = y.cre → E f (w ++ x :: y :: w') = -E f (w ++ y :: x :: w')

/-- `a†` and `a` -/
def c (f a : Nat) (b : Bool) : Op := ⟨true, f, a, b⟩
@[inherit_doc c]
def d (f a : Nat) (b : Bool) : Op := ⟨false, f, a, b⟩

/-- One-body word `p†_s q_s`. -/
def word1 (s : Bool) (p q : Nat × Nat) : List Op := [c p.1 p.2 s, d q.1 q.2 s]

/-- Two-body word `p†_s r†_t s_t q_s` for the element `[p, q, r, s]`. -/
def word2 (s t : Bool) (p q r u : Nat × Nat) : List Op := [c p.1 p.2 s, c r.1 r.2 t, d u.1 u.2 t, d q.1 q.2 s]

/-- Three-body word `p†_s r†_t v†_y x_y u_t q_s` for the element `[p, q, r, u, v, x]`. -/
def word3 (s t y : Bool) (p q r u v x : Nat × Nat) : List Op :=
  [c p.1 p.2 s, c r.1 r.2 t, c v.1 v.2 y, d x.1 x.2 y, d u.1 u.2 t, d q.1 q.2 s]

/-- Orbital `p.2` of fragment `p.1` exists. -/
def Exists (ncas : List Nat) (p : Nat × Nat) : Prop := p.2 < ncas.getD p.1 0

instance (ncas : List Nat) (p : Nat × Nat) : Decidable (Exists ncas p) := inferInstanceAs (Decidable (_ < _))

/-- Position of orbital `p.2` of fragment `p.1` in the collective active space: the fragments follow each other. -/
def index (ncas : List Nat) (p : Nat × Nat) : Nat := (ncas.take p.1).sum + p.2

/-- Sum over spins. -/
def sumSpin (f : Bool → R) : R := f false + f true

end Verif.Spec.ProdRdm
