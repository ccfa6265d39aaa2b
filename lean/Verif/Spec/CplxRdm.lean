import Verif.Spec.CplxCi
import Verif.Model.CplxRdm
/-!
# Specification: density matrices of complex vectors
-/
namespace Verif.Spec.CplxRdm
open Verif.Spec.Tdm Verif.Spec.FciRdm Verif.Spec.HalfOp Verif.Spec.CplxCi Verif.FciRdm Verif.HalfOp

/-- The one-body density matrix of spin `s` (`true` is spin down) in PySCF's convention: `dm1[p,q] = ⟨ψ| q'_s p_s |ψ⟩`. -/
noncomputable def dm1 (n : Nat) (ψ : Vec ℂ) (s : Bool) (p q : Nat) : ℂ := dot n ψ (exc n s q p ψ)

/-- The two-body density matrix in PySCF's convention: `dm2[p,q,r,u] = ⟨ψ| p'_s r'_t u_t q_s |ψ⟩`. -/
noncomputable def dm2 (n : Nat) (ψ : Vec ℂ) (s t : Bool) (p q r u : Nat) : ℂ := dot n ψ (cre n s p (cre n t r (ann n t u (ann n s q ψ))))

/-- The same without the operators being put in order: `⟨ψ| p'_s q_s r'_t u_t |ψ⟩`. -/
noncomputable def dm2raw (n : Nat) (ψ : Vec ℂ) (s t : Bool) (p q r u : Nat) : ℂ := dot n ψ (exc n s p q (exc n t r u ψ))

/-- Two arrays agree for orbitals below `n`. -/
def Eq2 (n : Nat) (a b : M2 ℂ) : Prop := ∀ p < n, ∀ q < n, a p q = b p q
def Eq4 (n : Nat) (a b : M4 ℂ) : Prop := ∀ p < n, ∀ q < n, ∀ r < n, ∀ u < n, a p q r u = b p q r u

/-- The squared absolute value of each nonzero coefficient exceeds the threshold. -/
def Seen (thr : ℝ) (na nb : Nat) (c : Arr ℂ) : Prop := ∀ i < na, ∀ j < nb, c i j = 0 ∨ thr < Complex.normSq (c i j)

end Verif.Spec.CplxRdm
