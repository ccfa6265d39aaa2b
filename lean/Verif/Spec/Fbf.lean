import Verif.Spec.Lassis
/-!
# Specification: the basis of fragment wave functions LASSIS uses for one fragment
-/
namespace Verif.Spec
open Verif.Spaces Verif.Lassis

/-- The sets of vectors of fragment `p` out of `n`, in order: the reference, the two spin flips, the fragment as the source of
a hop to each fragment, and as the destination of a hop from each fragment. -/
def fbfSets (n p : Nat) : List Vec :=
  .ref p :: [.flip p 0, .flip p 1] ++
    ((List.range n).flatMap fun a => [.hop p a 0 0, .hop p a 1 0, .hop p a 2 0, .hop p a 3 0]) ++
    ((List.range n).flatMap fun j => [.hop j p 0 1, .hop j p 1 1, .hop j p 2 1, .hop j p 3 1])

/-- Number of vectors in a set; the reference is one vector. -/
def setSize (len : Vec → Option Nat) : Vec → Nat
  | .ref _ => 1
  | x => (len x).getD 0

/-- Number of the first function of a set: the functions of all sets before it come first. -/
def firstFn (len : Vec → Option Nat) (n p : Nat) (x : Vec) : Nat :=
  (((fbfSets n p).take ((fbfSets n p).idxOf x)).map (setSize len)).sum

/-- By how much the electron number and the multiplicity of the vectors of a set differ from those of the reference. -/
def sector : Vec → Int × Int
  | .ref _ => (0, 0)
  | .flip _ d => (0, flipBy d)
  | .hop i a s side => if side = 0 then (-1, (ElHop.mk i a s).dSrc) else (1, (ElHop.mk i a s).dDst)

/-- The rootspace `r` uses vectors of the set `x` for fragment `p`. -/
def Carries (out : List Root) (p r : Nat) (x : Vec) : Prop := ∃ t m, out[r]? = some t ∧ t.ci.getD p none = some (x, m)

/-- Same numbers of electrons of both spins and same multiplicity in every fragment. -/
def SameLocal (n : Nat) (a b : Space) : Prop :=
  ∀ k < n, a.neleca k = b.neleca k ∧ a.nelecb k = b.nelecb k ∧ el a.smults k = el b.smults k

end Verif.Spec
