import Verif.Model.Hsi
import Verif.Model.Rotate
/-!
# Model of the matrix-free operators with linearly equivalent rootspaces (/repo/my_pyscf/lassi/op_o1/hsi.py)

The input vector is transformed to the vectors of the first of the linearly equivalent rootspaces, and the result back.
-/
namespace Verif.Lstdm
open Verif.Umat Verif.Np

variable {K : Type} [Field K]

/-- hsi.py:359-365 `_umat_linequiv_`: `ivec = 0` is the input vector (`umat.conj ().T`), `ivec = 1` the output vector (`umat`). -/
def linequivVec (cols : List (List Nat)) (ivec : Nat) (v : Nd K) (op : Nat × Nat × Nd K) : Option (Nd K) :=
  if ivec = 0 then umatDot1frag v op.2.2.T cols op.1 op.2.1 0
  else if ivec = 1 then umatDot1frag v op.2.2 cols op.1 op.2.1 0
  else none

namespace Kern
variable (k : Kern K)

/-- stdm.py:1084-1090 `_umat_linequiv_loop_`, called with the number of the vector. -/
def linequivVecLoop (umats : Nat → List (Nat × Nd K)) (ivec : Nat) (v : Nd K) : Option (Nd K) :=
  (opsOf k.nlas.length umats).foldlM (linequivVec k.cols ivec) v

/-- hsi.py:370-377, 382-389, 876-887: copy the vector, transform it, apply the operator, transform the result. -/
def rotated (umats : Nat → List (Nat × Nd K)) (op : (Nat → K) → Option (Nat → K)) (x : Nd K) : Option (Nd K) := do
  let x ← k.linequivVecLoop umats 0 x
  let ox ← op (fun i => x.get [i])
  k.linequivVecLoop umats 1 ⟨x.shape, fun t => ox (t.getD 0 0)⟩

variable [DecidableEq K]

/-- hsi.py:367-377 `_ham_op`. -/
def hamOpRot (hash : Nat × List Nat → Int) (H : Ham K) (umats : Nat → List (Nat × Nd K)) (x : Nd K) : Option (Nd K) :=
  k.rotated umats (k.hamOp hash H) x

/-- hsi.py:379-389 `_s2_op`. -/
def s2OpRot (hash : Nat × List Nat → Int) (H : Ham K) (umats : Nat → List (Nat × Nd K)) (x : Nd K) : Option (Nd K) :=
  k.rotated umats (k.s2Op hash H) x

/-- hsi.py:874-887 `_ovlp_op`. -/
def ovlpOpRot (umats : Nat → List (Nat × Nd K)) (x : Nd K) : Option (Nd K) := k.rotated umats k.ovlpOp x

end Kern
end Verif.Lstdm
