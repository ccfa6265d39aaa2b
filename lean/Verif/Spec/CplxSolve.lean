import Verif.Model.CplxSolve
/-!
# Specification: the solver for complex CI vectors
-/
namespace Verif.Spec.CplxSolve

/-- `ss` multiplies real vectors of length `n` by the real symmetric matrix `M`. -/
structure Applies (n : Nat) (M : Nat → Nat → ℝ) (ss : (Nat → ℝ) → Nat → ℝ) : Prop where
  val : ∀ v, ∀ i < n, ss v i = ∑ j ∈ Finset.range n, M i j * v j
  symm : ∀ i < n, ∀ j < n, M i j = M j i

/-- `⟨c| M |c⟩`. -/
noncomputable def expect (n : Nat) (M : Nat → Nat → ℝ) (c : Nat → ℂ) : ℂ :=
  ∑ i ∈ Finset.range n, star (c i) * ∑ j ∈ Finset.range n, (M i j : ℂ) * c j

/-- The `n × n` matrix is Hermitian. -/
def Herm (n : Nat) (op : Nat → Nat → ℂ) : Prop := ∀ i < n, ∀ j < n, op i j = star (op j i)

end Verif.Spec.CplxSolve
