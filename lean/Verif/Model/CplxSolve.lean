import Mathlib.Data.Complex.BigOperators
import Mathlib.Analysis.Complex.Norm
import Mathlib.Data.Real.Sqrt
/-!
# Model of the spin operator, the checks, the preconditioner and the initial guess of the solver for complex CI vectors
(/repo/my_pyscf/pbc/fci/spin_op.py, direct_spin1_cplx.py, direct_spin0_cplx.py)

* Numbers are exact real and complex numbers; vectors and matrices are functions of their indices.
* External: PySCF's `contract_ss` for real vectors, given by `ss`; `eigh`, of which only the triangle it reads matters; PySCF's
  `_get_init_guess`, given by the list of vectors.
-/
namespace Verif.CplxSolve

/-- spin_op.py:12-26 `contract_ss0`. -/
noncomputable def contractSs0 (ss : (Nat → ℝ) → Nat → ℝ) (c : Nat → ℂ) : Nat → ℂ := fun i =>
  ⟨ss (fun j => (c j).re) i, ss (fun j => (c j).im) i⟩

/-- spin_op.py:37-39 `s2`: `np.vdot` of real vectors of length `n`. -/
noncomputable def s2 (n : Nat) (ss : (Nat → ℝ) → Nat → ℝ) (c1 c2 : Nat → ℝ) : ℝ := ∑ i ∈ Finset.range n, c2 i * ss c1 i

/-- spin_op.py:28-62 `spin_square0`: `(ss, multip)` and the imaginary part, of which the function only warns. -/
noncomputable def spinSquare0 (n : Nat) (ss : (Nat → ℝ) → Nat → ℝ) (c : Nat → ℂ) : (ℝ × ℝ) × ℝ :=
  let re := fun i => (c i).re
  let im := fun i => (c i).im
  let ssreal := s2 n ss re re + s2 n ss im im
  let ssimag := s2 n ss re im - s2 n ss im re
  let s := Real.sqrt (ssreal + 1 / 4) - 1 / 2
  ((ssreal, 2 * s + 1), ssimag)

/-- The order of NumPy for complex numbers: the real parts, then the imaginary parts. -/
def lexLt (a b : ℂ) : Prop := a.re < b.re ∨ (a.re = b.re ∧ a.im < b.im)

open Classical in
/-- `np.max` of an array that is not empty. -/
noncomputable def npMax : ℂ → List ℂ → ℂ := List.foldl fun m x => if lexLt m x then x else m

/-- `op - op.conj ().T`, flattened. -/
noncomputable def antiPart (n : Nat) (op : Nat → Nat → ℂ) : List ℂ :=
  (List.range n).flatMap fun i => (List.range n).map fun j => op i j - star (op j i)

/-- direct_spin1_cplx.py:18, 604: the assertion of `eig`; `np.max` of an empty array is an error. -/
noncomputable def hermCheck (n : Nat) (op : Nat → Nat → ℂ) : Prop :=
  match antiPart n op with
  | [] => False
  | x :: l => lexLt (npMax x l) ⟨1 / 10 ^ 6, 0⟩

/-- The matrix whose eigenvalues `scipy.linalg.eigh` returns: it reads the lower triangle and the real parts of the diagonal. -/
noncomputable def eighSees (op : Nat → Nat → ℂ) : Nat → Nat → ℂ := fun i j =>
  if i = j then ((op i i).re : ℂ) else if j < i then op i j else star (op j i)

open Classical in
/-- direct_spin1_cplx.py:600-608 `eig` of an array: the matrix that is diagonalized, or the error. -/
noncomputable def eigArray (n : Nat) (op : Nat → Nat → ℂ) : Option (Nat → Nat → ℂ) := if hermCheck n op then some (eighSees op) else none

open Classical in
/-- direct_spin1_cplx.py:352-370 `_make_diag_precond`. -/
noncomputable def diagPrecond (hdiag : Nat → ℂ) (shift : ℝ) (dx : Nat → ℂ) (e : ℂ) : Nat → ℂ := fun i =>
  let d := hdiag i - ((e.re - shift : ℝ) : ℂ)
  dx i / (if ‖d‖ < 1 / 10 ^ 8 then ((1 / 10 ^ 8 : ℝ) : ℂ) else d)

/-- direct_spin0_cplx.py:71-93 `get_init_guess`: for one root the symmetrized vector; for several, `init_ci.dtype` of a list is an error, after the loop. -/
noncomputable def initGuess0 (nroots na : Nat) (initCi : List (Nat → ℂ)) : Option (Nat → ℂ) :=
  if 1 < nroots then none
  else match initCi with
    | [c] => some fun x => 1 / 2 * (c x + c (x % na * na + x / na))
    | _ => none

end Verif.CplxSolve
