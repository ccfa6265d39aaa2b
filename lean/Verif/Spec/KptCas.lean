import Verif.Model.KptCas
import Mathlib.Algebra.Group.Defs
/-!
# Specification: active spaces of k-point calculations
-/
namespace Verif.Spec.KptCas
open Verif.HalfOp Verif.KptCas

/-- The phases of different k-points are orthonormal over the cells. -/
def UnitaryPhase (nk : Nat) (phase : M2 ℂ) : Prop :=
  ∀ k < nk, ∀ k' < nk, (∑ R ∈ Finset.range nk, star (phase R k) * phase R k') = if k = k' then 1 else 0

/-- The first `n` orbitals of each k-point are orthonormal. -/
def Orthonormal (nk nao n : Nat) (S C : Mos) : Prop :=
  ∀ k < nk, ∀ p < n, ∀ q < n, (∑ u ∈ Finset.range nao, ∑ v ∈ Finset.range nao, star (C k u p) * S k u v * C k v q) = if p = q then 1 else 0

/-- `tr (A B)` for matrices of each k-point, summed over the k-points. -/
noncomputable def trace (nk nao : Nat) (A B : Mos) : ℂ :=
  ∑ k ∈ Finset.range nk, ∑ i ∈ Finset.range nao, ∑ j ∈ Finset.range nao, A k i j * B k j i

/-- `C^† A C` for one k-point. -/
noncomputable def inMo (nao : Nat) (A C : Mos) (k p q : Nat) : ℂ :=
  ∑ u ∈ Finset.range nao, ∑ v ∈ Finset.range nao, star (C k u p) * A k u v * C k v q

/-- `kcons a b c` is the k-point `a - b + c`, for k-points that are elements of an abelian group. -/
structure Conserving {G : Type} [AddCommGroup G] (nk : Nat) (κ : Nat → G) (kcons : Nat → Nat → Nat → Nat) : Prop where
  inj : ∀ a < nk, ∀ b < nk, κ a = κ b → a = b
  lt : ∀ a < nk, ∀ b < nk, ∀ c < nk, kcons a b c < nk
  val : ∀ a < nk, ∀ b < nk, ∀ c < nk, κ (kcons a b c) = κ a - κ b + κ c

/-- The integrals `(a u, b v | c w, d t)`, with `d = kcons a b c`, do not change when the two electrons are exchanged, and are conjugated when the orbitals
of each electron are exchanged. -/
structure EriSym (nk ncas : Nat) (kcons : Nat → Nat → Nat → Nat) (eriK : Nat → Nat → Nat → M4 ℂ) : Prop where
  swap : ∀ a < nk, ∀ b < nk, ∀ c < nk, ∀ u < ncas, ∀ v < ncas, ∀ w < ncas, ∀ t < ncas, eriK a b c u v w t = eriK c (kcons a b c) a w t u v
  herm : ∀ a < nk, ∀ b < nk, ∀ c < nk, ∀ u < ncas, ∀ v < ncas, ∀ w < ncas, ∀ t < ncas, star (eriK a b c u v w t) = eriK b a (kcons a b c) v u t w

end Verif.Spec.KptCas
