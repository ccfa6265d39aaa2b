import Verif.Spec.FragTables
import Verif.Spec.RdmSmult
import Verif.Model.FragSpin
/-!
# Specification: spin multiplicities and manifolds of rootspaces
-/
namespace Verif.Spec.FragSpin
open Verif.Spec.Tdm Verif.Spec.Spin Verif.Spec.RdmSmult Verif.Spec.FragTables Verif.FragTables Verif.FragSpin

/-- The vectors of rootspaces `i`, `j` are states of the same multiplets with different spin projections: as many electrons, the same
multiplicity, as many local roots, and raised to the highest projection they are equal. -/
structure SameMultiplets (F : SFrag) (i j : Nat) : Prop where
  tot : (F.nelec i).1 + (F.nelec i).2 = (F.nelec j).1 + (F.nelec j).2
  smult : F.smult i = F.smult j
  lroots : F.lroots i = F.lroots j
  spin : F.nelec i ≠ F.nelec j
  top : ∀ s, F.smult i = some s → ∀ a < F.lroots i,
    SpinOp.mup F.norb (F.nelec i).1 (F.nelec i).2 s (F.vecS i a) = SpinOp.mup F.norb (F.nelec j).1 (F.nelec j).2 s (F.vecS j a)

/-- The multiplicities, where they are given, are those of the vectors: possible ones, with room for them in the orbitals, and the same
for a rootspace and the unique rootspace that stands for it. -/
structure Multiplicities (F : SFrag) : Prop where
  rep : ∀ i < F.nroots, F.smult (F.rep i) = F.smult i
  ok : ∀ i < F.nroots, ∀ s, F.smult i = some s → SpinOK s (F.nelec i).1 (F.nelec i).2
  room : ∀ i < F.nroots, ∀ s, F.smult i = some s → ((F.nelec i).1 : ℤ) + (F.nelec i).2 + (s - 1) ≤ 2 * F.norb
  state : ∀ i < F.nroots, F.unique i = true → ∀ s, F.smult i = some s → ∀ a < F.lroots i,
    State F.norb (F.nelec i).1 (F.nelec i).2 s (F.vecS i a)

/-- Manifolds that do not contradict the vectors. -/
structure Manifolds (F : SFrag) : Prop where
  given : F.allSmult = false → ∀ u < F.nuroots, ∀ w < F.nuroots, F.spman u = F.spman w → u = w
  same : ∀ u < F.nuroots, ∀ w < F.nuroots, F.spman u = F.spman w → u ≠ w → SameMultiplets F (F.addr u) (F.addr w)

/-- The vectors have unit length. -/
def Normalized (F : SFrag) : Prop := ∀ i < F.nroots, F.unique i = true → ∀ a < F.lroots i, ovl F.norb (civ F.toFrag i a) (civ F.toFrag i a) = 1

/-- `G` and its tables `M` come from making the tables of `F` and any number of replacements of vectors by vectors of the same
multiplicities. -/
inductive Reached (P : Ext ℝ) (F : SFrag) : SFrag → Mats ℝ → Prop
  | made {G : SFrag} {M : Mats ℝ} : initCrunch P F = some (G, M) → Reached P F G M
  | updated {G G' : SFrag} {M M' : Mats ℝ} (iroot : List Nat) (new : List (Nat × (Nat → Verif.FciRdm.Arr ℝ))) : Reached P F G M →
      updateCiS P G M iroot new = some (G', M') → Multiplicities G' → Reached P F G' M'

end Verif.Spec.FragSpin
