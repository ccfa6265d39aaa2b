import Verif.Model.Overlap
import Verif.Model.HamS2
/-!
# Model of `HamS2Ovlp.kernel` with linearly equivalent rootspaces (/repo/my_pyscf/lassi/op_o1/hams2ovlp.py:104-128)
-/
namespace Verif.Lstdm
open Verif.Np Verif.Umat

namespace Kern
variable {K : Type} [Field K] [DecidableEq K] (k : Kern K)

/-- hams2ovlp.py:104-128 `kernel`: Hamiltonian, spin squared and overlap matrices. -/
def hamKernelRot (H : Ham K) (umats : Nat → List (Nat × Nd K)) : Option (Nd K × Nd K × Nd K) := do
  let M ← k.hamKernel H
  let n := k.numStates
  let ovlp ← k.getOvlp umats none
  let ham ← linequivLoop k.cols k.nlas.length umats ⟨[n, n], fun t => M.1 (t.getD 0 0) (t.getD 1 0)⟩
  let s2 ← linequivLoop k.cols k.nlas.length umats ⟨[n, n], fun t => M.2 (t.getD 0 0) (t.getD 1 0)⟩
  pure (ham, s2, ovlp)

end Kern
end Verif.Lstdm
