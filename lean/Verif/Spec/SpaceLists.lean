import Verif.Spec.Spaces
import Verif.Spec.SpinTables
/-!
# What is said about lists of rootspaces
-/
namespace Verif.Spec
open Verif.Spaces

/-- Every fragment's projection is one of `-s, -s+2, ..., s`, for its multiplicity `s + 1`. -/
def ProjOk (sp : Space) : Prop := SpinVec (sp.smults.map (· - 1)) sp.spins.sum sp.spins

/-- `new` differs from `ref` only in the arrangement of the local projections: the fragments have the same orbitals,
charges and multiplicities, the local projections are possible ones, and they add up to the same total. -/
def Rearranged (ref new : Space) : Prop :=
  new.nlas = ref.nlas ∧ new.nelelas = ref.nelelas ∧ new.charges = ref.charges ∧ new.smults = ref.smults ∧
  SpinVec (ref.smults.map (· - 1)) (totalSpin ref) new.spins

/-- Same electron number and multiplicity in every fragment and the same total projection. -/
def SpinRelated (a b : Space) : Prop :=
  (∀ i, i < a.nfrag → el a.nelelas i - el a.charges i = el b.nelelas i - el b.charges i ∧ el a.smults i = el b.smults i) ∧
  totalSpin a = totalSpin b

/-- Fragment `i` has the same electron number, multiplicity and projection in both rootspaces. -/
def SameFrag (a b : Space) (i : Nat) : Prop :=
  el a.charges i = el b.charges i ∧ el a.smults i = el b.smults i ∧ el a.spins i = el b.spins i

/-- Fragment `i` has the same electron number and multiplicity in both rootspaces. -/
def SameFragNoM (a b : Space) (i : Nat) : Prop :=
  el a.charges i = el b.charges i ∧ el a.smults i = el b.smults i

/-- `sp` is a rootspace over the same fragments as `ref`, with every fragment in a possible state. -/
structure Fits (sp ref : Space) : Prop where
  shaped : Shaped sp
  orbs : sp.nlas = ref.nlas
  elec : sp.nelelas = ref.nelelas
  ok : ∀ k, k < sp.nfrag → FragOk sp k

/-- The fragment is not changed by the excitation, as the code decides it. -/
def Unchanged (m : Bool) (sp ref : Space) (i : Nat) : Prop :=
  if m then SameFragNoM sp ref i else SameFrag sp ref i

/-- The multiplicities of the product: those of the second excitation where it changes the fragment, otherwise those
of the first. -/
def ProductMults (e1 e2 ref : Space) (s : List Int) : Prop :=
  s.length = ref.nfrag ∧ ∀ i, i < ref.nfrag →
    (Unchanged true e2 ref i → el s i = el e1.smults i) ∧ (¬ Unchanged true e2 ref i → el s i = el e2.smults i)

end Verif.Spec
