import Verif.Spec.LstdmKernel
/-!
# Specification: keys of intermediate vectors
-/
namespace Verif.Spec.Lstdm
open Verif.Lstdm

variable {K : Type}

/-- A list of one unique rootspace for every fragment. -/
def IsString (k : Kern K) (s : List Nat) : Prop :=
  s.length = k.nlas.length ∧ ∀ f < k.nlas.length, ∃ r < k.cols.length, s.getD f 0 = k.uroot f r

/-- Pairs of a rootspace and a list of unique rootspaces with equal fingerprints are equal. -/
def NoLinkCollision (k : Kern K) (hash : Nat × List Nat → Int) : Prop :=
  ∀ r < k.cols.length, ∀ r' < k.cols.length, ∀ s s', IsString k s → IsString k s' → hash (r, s) = hash (r', s') → r = r' ∧ s = s'

end Verif.Spec.Lstdm
