import Mathlib.Logic.Basic
/-!
# Model of convergence reporting, keyword forwarding and temporary state

/repo/my_pyscf/mcscf/productstate.py, /repo/my_pyscf/mcscf/addons.py, /repo/my_pyscf/lassi/lassi.py,
/repo/my_pyscf/lassi/sisolver.py
-/
namespace Verif.Converge

/-- The parts of `ProductStateFCISolver.kernel` that are numerical: `C` CI vectors, `E` the list of fragment energies,
`S` the states of the fragment solvers. -/
structure Product (S C E : Type) where
  /-- lines 37-41: `get_init_guess` and `project_hfrag` -/
  guess : C → C
  /-- lines 42-43, 51: `grad_max < conv_tol_grad` -/
  gradOk : C → Bool
  /-- line 44: `[np.all (np.asarray (s.converged)) for s in self.fcisolvers]` -/
  flags : S → List Bool
  /-- lines 51, 57: `e_sigma < conv_tol_self` -/
  spreadOk : E → Bool
  /-- line 55: `_1shot` -/
  shot : Nat → E → C → S → E × C × S

/-- productstate.py:36-57: the macro cycles from cycle `it` on. `all ([solvers_converged])` is the truth value of a list
that contains one list, i.e. whether `solvers_converged` is not empty. Result: `converged`, `e`, `ci1`, solvers. -/
def Product.loop {S C E : Type} (P : Product S C E) : Nat → Nat → E → C → S → Bool × E × C × S
  | 0, _, e, ci1, s => (false, e, ci1, s)
  | n + 1, it, e, ci1, s =>
    let ci0 := P.guess ci1
    if P.gradOk ci0 && P.spreadOk e && ([P.flags s].all (fun l => !l.isEmpty)) && decide (0 < it) then (true, e, ci1, s)
    else
      let r := P.shot it e ci0 s
      P.loop n (it + 1) r.1 r.2.1 r.2.2

/-- productstate.py:27-67 `kernel`, without the final energy. -/
def Product.kernel {S C E : Type} (P : Product S C E) (maxCycle : Nat) (e : E) (ci0 : C) (s : S) : Bool × E × C × S :=
  let r := P.loop maxCycle 0 e ci0 s
  if r.1 then r else (false, r.2.1, P.guess r.2.2.1, r.2.2.2)

/-- productstate.py:186-204 `_1shot`: fragment solves; `solve f c` is the solver call of fragment `f`. -/
def oneShot {C : Type} (solve : Nat → C → C) (serialfrag : Bool) (it nfrag : Nat) (ci0 : List C) : List C :=
  ci0.zipIdx.map (fun cf => if serialfrag && it % nfrag != cf.2 then cf.1 else solve cf.2 cf.1)

/-- The truth value of `np.all (generator)`: numpy wraps the generator in a 0-dimensional object array, so the result is
the generator itself, which is true. -/
def npAllGenerator (_flags : List Bool) : Bool := true

/-- addons.py:157-158: `self.converged` of the mixed solver. -/
def mixConverged (flags : List Bool) : Bool := npAllGenerator flags

/-- One symmetry block in `lassi`: number of product states and the convergence flag its diagonalization returns. -/
structure Block where
  nstates : Nat
  conv : Bool
deriving DecidableEq, Repr

/-- lassi.py:303-328: `sisolver.converged` along the loop over blocks; blocks of one state are skipped. -/
def lassiConverged (flag0 : Bool) (blocks : List Block) : Bool :=
  blocks.foldl (fun flag b => if b.nstates == 1 then flag else b.conv) flag0

/-- lassi.py:875: `self.converged = self.converged and self.converged_si`. -/
def lassiKernelConverged (objFlag siFlag0 : Bool) (blocks : List Block) : Bool :=
  objFlag && lassiConverged siFlag0 blocks

/-- Attributes of the diagonalizer object. -/
abbrev Attrs (V : Type) := String → Option V

def Attrs.set {V : Type} (a : Attrs V) (k : String) (v : Option V) : Attrs V :=
  match v with
  | none => a
  | some v => fun k' => if k' = k then some v else a k'

/-- lassi.py:857-866: attributes set by `LASSI.kernel`. -/
def kernelAttrs {V : Type} (a : Attrs V) (levelShift nroots pspaceSize smult privref : Option V) : Attrs V :=
  let a := a.set "level_shift_si" levelShift
  let a := a.set "nroots_si" nroots
  let a := a.set "pspace_size" pspaceSize
  let a := a.set "smult" smult
  a.set "privref_si" privref

/-- The settings used in sisolver.py:209-217. -/
structure Settings (V : Type) where
  levelShift : Option V
  nroots : Option V
  privref : Option V
  pspaceSize : Option V
  smult : Option V
deriving DecidableEq

/-- sisolver.py:209-217 `getattr (sisolver, …)`. -/
def readSettings {V : Type} (a : Attrs V) : Settings V where
  levelShift := a "level_shift"
  nroots := a "nroots"
  privref := a "privref"
  pspaceSize := a "pspace_size"
  smult := a "smult"

/-- The LAS object as seen by `_LASSI_subspace_env`: the solver list of every fragment box, the state energies, and
everything else. -/
structure Las (F En R : Type) where
  boxes : List F
  eStates : En
  rest : R

/-- lassi.py:190-193 `__enter__`: `zip` stops at the shorter list. -/
def Las.enter {F En R : Type} (l : Las F En R) (my : List F) (e : En) : Las F En R :=
  { l with boxes := my.take l.boxes.length ++ l.boxes.drop my.length, eStates := e }

/-- lassi.py:194-197 `__exit__`, with the values saved by `__init__` (188-189). `self.fcisolvers[ix]` exists since the number
of boxes does not change. -/
def Las.exit {F En R : Type} (l saved : Las F En R) : Las F En R :=
  { l with boxes := l.boxes.zipIdx.map (fun fi => saved.boxes.getD fi.2 fi.1), eStates := saved.eStates }

/-- What happens in the body of the loop over blocks: a new state, and possibly an exception. -/
abbrev Body (L : Type) := L → L × Bool

/-- lassi.py:213-251: one `with _LASSI_subspace_env …: yield` per block; the consumer's exception leaves the loop through
`__exit__`. Result: final state and whether an exception propagates. -/
def runBlocks {F En R : Type} : List (List F × En × Body (Las F En R)) → Las F En R → Las F En R × Bool
  | [], l => (l, false)
  | (my, e, body) :: rest, l =>
    let r := body (l.enter my e)
    let l' := r.1.exit l
    if r.2 then (l', true) else runBlocks rest l'

end Verif.Converge
