import Mathlib.Analysis.Real.Pi.Bounds
/-!
# Model of the control flow of the synchronous LASSCF kernel (/repo/my_pyscf/mcscf/lasscf_sync_o0.py:23-297, 1249-1303, 1451-1466)

Vectors are functions on `Fin n`; numbers are real. Integrals, density matrices, gradients, the CI solvers and the conjugate-gradient
iteration are parameters.
-/
namespace Verif.SyncKernel
open scoped BigOperators

/-- `linalg.norm` -/
noncomputable def nrm {n : Nat} (v : Fin n → ℝ) : ℝ := Real.sqrt (∑ i, v i ^ 2)

/-- An element of `Hdiag`: a number, or `np.inf` (`none`). -/
abbrev Diag (n : Nat) := Fin n → Option ℝ

/-- lasscf_sync_o0.py:1299-1303 `PrecOp._matvec`: `x / Hdiag` (division by `np.inf` gives 0). Division of a non-zero number by zero,
which gives `inf` in numpy, is excluded where it matters. -/
noncomputable def prec {n : Nat} (H : Diag n) (x : Fin n → ℝ) : Fin n → ℝ := fun i => match H i with
  | none => 0
  | some h => x i / h

/-- lasscf_sync_o0.py:23-32 `get_level_shift` -/
noncomputable def getLevelShift {n : Nat} (trust : ℝ) (H : Diag n) (g : Fin n → ℝ) : ℝ :=
  let x := nrm (prec H fun i => -g i)
  let g := nrm g
  if x ≤ trust then 0 else g / x + g / trust

/-- lasscf_sync_o0.py:135: `prec_op.Hdiag += floating_level_shift` -/
noncomputable def addShift {n : Nat} (H : Diag n) (s : ℝ) : Diag n := fun i => (H i).map (· + s)

/-- lasscf_sync_o0.py:1267-1268 -/
noncomputable def floorDiag {n : Nat} (h : Fin n → ℝ) : Fin n → ℝ := fun i => if |h i| < 1e-8 then 1e-8 else h i

/-- lasscf_sync_o0.py:1278 `idx_unstable` -/
def Unstable {n : Nat} (h : Fin n → ℝ) (g : Fin n → ℝ) (i : Fin n) : Prop := |nrm g / h i| > Real.pi

/-- lasscf_sync_o0.py:1284: the test for masking. `round (y, 2) < 1` is read as `y < 0.995`; for a zero gradient the quotient is not a
number and the comparison false. -/
def Maskable {n : Nat} (h : Fin n → ℝ) (g : Fin n → ℝ) : Prop :=
  (∃ i, ¬Unstable h g i) ∧ nrm g ≠ 0 ∧
    (open scoped Classical in nrm (fun i => if Unstable h g i then g i else 0)) / nrm g < 0.995

open scoped Classical in
/-- lasscf_sync_o0.py:1249-1291 `get_prec`: the diagonal of the preconditioner, from `_get_Hdiag () + level_shift`. -/
noncomputable def getPrec {n : Nat} (h0 : Fin n → ℝ) (g : Fin n → ℝ) : Diag n :=
  let h := floorDiag h0
  if Maskable h g then fun i => if Unstable h g i then none else some (h i) else fun i => some (h i)

/-- lasscf_sync_o0.py:132-138: the shift is applied; `none` is the failed assertion. -/
noncomputable def shifted {n : Nat} (trust : ℝ) (H : Diag n) (g : Fin n → ℝ) : Option (Diag n) :=
  let H' := addShift H (getLevelShift trust H g)
  if getLevelShift trust H' g < 1e-8 then some H' else none

/-- lasscf_sync_o0.py:206-228: up to three attempts; `trial` builds the wave function for a step vector, `half` scales the vector
(`x *= .5`), `lower` is `e2 < H_op.e_tot`. The last trial is kept. -/
def scaleDown {X S : Type} (trial : X → S) (half : X → X) (lower : S → Bool) (x : X) : S :=
  let s := trial x
  if lower s then s else
    let x := half x
    let s := trial x
    if lower s then s else
      let x := half x
      trial x

/-- What a macrocycle does after the convergence test: a step from the conjugate-gradient iteration, or an aborted iteration with the
last step vector. -/
inductive Micro (X S : Type)
  | done (s : S)
  | unstable (x : X)

/-- What the kernel calls: `solve` (lasscf_sync_o0.py:82-105: the CI solvers, then canonicalization), the norms of the gradient (orbital,
CI, external; 139-141), the microiterations and the trial steps from a keyframe. -/
structure Env (X S : Type) where
  solve : S → S
  gorb : S → ℝ
  gci : S → ℝ
  gx : S → ℝ
  micro : S → Micro X S
  trial : S → X → S
  half : X → X
  energy : S → ℝ

/-- lasscf_sync_o0.py:152-154 -/
def Env.Conv {X S : Type} (E : Env X S) (tol : ℝ) (s : S) : Prop :=
  (E.gorb s < tol ∧ E.gci s < tol) ∨ E.gorb s + E.gci s < E.gx s / 10

open scoped Classical in
/-- lasscf_sync_o0.py:195-228: the new wave function. -/
noncomputable def Env.step {X S : Type} (E : Env X S) (s : S) : S := match E.micro s with
  | .done s' => s'
  | .unstable x => scaleDown (E.trial s) E.half (fun t => decide (E.energy t < E.energy s)) x

open scoped Classical in
/-- lasscf_sync_o0.py:81-232: the macrocycles from number `it` on, `n` of them left; result: `converged`, the wave function, and the
number of macrocycles begun. -/
noncomputable def Env.macrocycles {X S : Type} (E : Env X S) (tol : ℝ) (minCycle : Nat) : Nat → Nat → S → Bool × S × Nat
  | _, 0, s => (false, s, 0)
  | it, n + 1, s =>
    let s := E.solve s
    if E.Conv tol s ∧ minCycle ≤ it then (true, s, 1)
    else
      let r := E.macrocycles tol minCycle (it + 1) n (E.step s)
      (r.1, r.2.1, r.2.2 + 1)

/-- lasscf_sync_o0.py:1455-1462: one CI vector of `_update_ci`. -/
noncomputable def updateCi {n : Nat} (c dc : Fin n → ℝ) : Fin n → ℝ :=
  let o := ∑ i, c i * dc i
  let dc : Fin n → ℝ := fun i => dc i - c i * o
  let phi := nrm dc
  let sinp := if |phi| > 1e-8 then Real.sin phi / phi else 1
  fun i => Real.cos phi * c i + sinp * dc i

/-- lasscf_sync_o0.py:284-332 `ci_cycle`, CI vectors only: fragments listed in `frozen_ci` are skipped. -/
def ciCycle {V : Type} (frozen : List Nat) (kernel : Nat → V → V) (ci : List V) : List V :=
  ci.zipIdx.map fun x => if x.2 ∉ frozen then kernel x.2 x.1 else x.1

end Verif.SyncKernel
