import Verif.Spec.SpinOp
import Verif.Spec.Tdm
/-!
# Specification: transition density matrices of CI vectors given on sets of occupied orbitals
-/
namespace Verif.Spec.RdmSmult
open Verif.Spec.Tdm

/-- The occupied orbitals of a string. -/
def bits (n A : ℕ) : Finset ℕ := (Finset.range n).filter fun p => A.testBit p = true

/-- A CI vector on sets of occupied orbitals (Model/SpinOp) as a CI vector on strings (Spec/Tdm). -/
def onStrings (n : ℕ) (v : Verif.SpinOp.Vec) : Vec ℝ := fun A B => v (bits n A) (bits n B)

/-- A CI vector of `na` alpha and `nb` beta electrons in `norb` orbitals that has the spin multiplicity `smult`. -/
structure State (norb na nb : ℕ) (smult : ℤ) (v : Verif.SpinOp.Vec) : Prop where
  ok : Verif.Spec.Spin.SpinOK smult na nb
  inSpace : Verif.Spec.Spin.InSpace norb na nb v
  pure : Verif.Spec.Spin.SpinPure na nb smult v

/-- `⟨bra| p_s |ket⟩`. -/
def matH (N : ℕ) (bra ket : Vec ℝ) (s : Bool) (p : ℕ) : ℝ := ovl N bra (ann N s p ket)

/-- `⟨bra| p'_t q_t r_s |ket⟩`. -/
def matPhh (N : ℕ) (bra ket : Vec ℝ) (t s : Bool) (r p q : ℕ) : ℝ := ovl N (ann N t p bra) (ann N t q (ann N s r ket))

/-- `⟨bra| p_s q_t |ket⟩`. -/
def matHh (N : ℕ) (bra ket : Vec ℝ) (s t : Bool) (p q : ℕ) : ℝ := ovl N bra (ann N s p (ann N t q ket))

/-- `⟨bra| p'_b q_a |ket⟩`. -/
def matSm (N : ℕ) (bra ket : Vec ℝ) (p q : ℕ) : ℝ := ovl N (ann N true p bra) (ann N false q ket)

end Verif.Spec.RdmSmult
