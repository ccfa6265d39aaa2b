import Mathlib.Data.List.Dedup
import Mathlib.Algebra.Order.Group.Unbundled.Abs
import Mathlib.Algebra.Order.Group.Int
/-!
# Model of the state-average bookkeeping (/repo/my_pyscf/mcscf/lasci.py, /repo/my_pyscf/mcscf/addons.py)
-/
namespace Verif.StateAverage

/-- Quantum numbers of one fragment in one state: charge, twice the spin projection, multiplicity, irrep
(lasci.py:618: the last axis of `np.stack ([charges, spins, smults, wfnsyms], axis=-1)`). -/
structure Qn where
  charge : Int
  spin : Int
  smult : Int
  wfnsym : Int
deriving DecidableEq, Repr

/-- The FCI solver of one fragment in one state, as set in lasci.py:622: `csf_solver (mol, smult=s2p1).set (charge=c, spin=m2,
wfnsym=ir)`. `none`: attribute missing or `None`. -/
structure Solver where
  charge : Option Int
  spin : Option Int
  smult : Option Int
  wfnsym : Option Int
deriving DecidableEq, Repr

/-- lasci.py:622. -/
def mkSolver (q : Qn) : Solver := ⟨some q.charge, some q.spin, some q.smult, some q.wfnsym⟩

/-- addons.py:11-17 `StateAverageNMixFCISolver._get_nelec`. Python's `//` and `%` by 2 are the Euclidean ones. -/
def getNelec (s : Solver) (nelec : Nat × Nat) : Int × Int :=
  let n0 : Int := (nelec.1 : Int) + nelec.2
  let m := s.spin.getD (n0 % 2)
  let n := n0 - s.charge.getD 0
  ((n + m) / 2, (n - m) / 2)

/-- lasci.py:472-487 `get_space_info` for one fragment and state. -/
def spaceInfo (s : Solver) (nelec : Nat × Nat) : Qn :=
  let ne := getNelec s nelec
  let spin := ne.1 - ne.2
  ⟨((nelec.1 : Int) + nelec.2) - (ne.1 + ne.2), spin, s.smult.getD (|spin| + 1), s.wfnsym.getD 0⟩

/-- `get_space_info` for all states and fragments. -/
def spaceInfoAll (tab : List (List Solver)) (nelecs : List (Nat × Nat)) : List (List Qn) :=
  tab.map (fun row => (row.zip nelecs).map (fun p => spaceInfo p.1 p.2))

/-- lasci.py:621-624: the solvers of the requested table. -/
def mkSolvers (tab : List (List Qn)) : List (List Solver) := tab.map (·.map mkSolver)

/-- lasci.py:579-582: defaults of the arguments for one fragment with `nelec` electrons. -/
def defaults (nelec : Nat × Nat) (charge spin smult wfnsym : Option Int) : Qn :=
  let sp := spin.getD ((nelec.1 : Int) - nelec.2)
  ⟨charge.getD 0, sp, smult.getD (|sp| + 1), wfnsym.getD 0⟩

/-- lasci.py:501-526 `assert_no_duplicates`: `np.unique (tab, …, axis=0)` lists the distinct rows with their counts; `true`
means the assertion error. -/
def raisesDuplicates (tab : List (List Qn)) : Bool := (tab.dedup.map (fun row => tab.count row)).any (fun c => decide (c > 1))

/-- lasci.py:643-651: one old state. `ci0 f j` is the table under construction, `none` in it is Python's `None`; the result
is `none` if a RuntimeError is raised. -/
def carryStep {C : Type} (new : List (List Qn)) (ci : Nat → Nat → C) (ci0 : Nat → Nat → Option C) (old : List Qn × Nat) :
    Option (Nat → Nat → Option C) :=
  let idx := (List.range new.length).filter (fun j => decide (new[j]? = some old.1))
  match idx with
  | [] => some ci0
  | [j] => some (fun f j' => if j' = j then some (ci f old.2) else ci0 f j')
  | _ => none

/-- lasci.py:635-652: the loop over the old states. -/
def carry {C : Type} (old new : List (List Qn)) (ci : Nat → Nat → C) : Option (Nat → Nat → Option C) :=
  old.zipIdx.foldlM (carryStep new ci) (fun _ _ => none)

end Verif.StateAverage
