import Verif.Spec.LstdmKernel
/-!
# Specification: overlap tables and selections of rootspaces
-/
namespace Verif.Spec.Lstdm
open Verif.Lstdm Verif.Spec.Tdm

variable {K : Type} [CommRing K]

/-- The overlap tables hold the overlaps of the fragment vectors `w f u a` (fragment, unique rootspace, local root), at least where the
numbers of electrons agree, and the vectors have the numbers of electrons of their rootspaces. -/
structure OvlpTables (k : Kern K) (w : Nat → Nat → Nat → Vec K) : Prop where
  num : ∀ f < k.nlas.length, ∀ r < k.cols.length, ∀ a < lroots k r f, HasNumbers (k.nlas.getD f 0) (w f (k.uroot f r) a)
    ((k.nelec.getD r []).getD f (0, 0)).1 ((k.nelec.getD r []).getD f (0, 0)).2
  tab : ∀ f < k.nlas.length, ∀ r < k.cols.length, ∀ r' < k.cols.length,
    (k.nelec.getD r []).getD f (0, 0) = (k.nelec.getD r' []).getD f (0, 0) → ∀ a < lroots k r f, ∀ b < lroots k r' f,
    (k.tabs f).ovlp (Nat.pair (k.uroot f r) a) (Nat.pair (k.uroot f r') b) =
      ovl (k.nlas.getD f 0) (w f (k.uroot f r) a) (w f (k.uroot f r') b)

/-- The selected rootspaces: all if no list is given. -/
def selection (k : Kern K) (rootidx : Option (List Nat)) : List Nat := rootidx.getD (List.range k.cols.length)

/-- The numbers of local roots of the selected rootspaces. -/
def selectedCols (k : Kern K) (rootidx : Option (List Nat)) : List (List Nat) :=
  (selection k rootidx).map (fun r => k.cols.getD r [])

end Verif.Spec.Lstdm
