import Verif.Model.SymBlocks
/-!
# Model of the excited-fragment bookkeeping (/repo/my_pyscf/lassi/lassis/excitations.py)
-/
namespace Verif.ExcFrags
open Verif.SymBlocks

/-- The FCI solver built in excitations.py:186-198: the attributes that `csf_solver (…).set (…)` is given, and the weights
if it is wrapped as a state-average solver. -/
structure Solver where
  charge : Int
  spin : Int
  nelec : Nat × Nat
  smult : Nat
  norb : Nat
  weights : Option (List Int)
deriving DecidableEq, Repr

/-- Arguments of one call `set_excited_fragment_ (ifrag, nelec, smult, weights)`. Weights are only carried along, so their
number type does not matter. -/
structure Call where
  frag : Nat
  nelec : Nat × Nat
  smult : Nat
  weights : Option (List Int)
deriving DecidableEq, Repr

/-- The attributes of `ExcitationPSFCISolver` that the calls read and write. -/
structure State where
  frags : List Nat
  solvers : List Solver
deriving DecidableEq, Repr

/-- excitations.py:113-114: both lists start empty. -/
def init : State := ⟨[], []⟩

/-- excitations.py:185-197: the new solver. `nelecRef f`, `norbRef f`: electrons and orbitals of reference fragment `f`. -/
def mkSolver (nelecRef : Nat → Nat × Nat) (norbRef : Nat → Nat) (c : Call) : Solver :=
  { charge := ((nelecRef c.frag).1 + (nelecRef c.frag).2 : Int) - ((c.nelec.1 : Int) + c.nelec.2)
    spin := (c.nelec.1 : Int) - c.nelec.2
    nelec := c.nelec
    smult := c.smult
    norb := norbRef c.frag
    weights := c.weights.bind (fun w => if w.length > 1 then some w else none) }

/-- excitations.py:198-205. `argsort` is `np.argsort` on the list of fragments. -/
def setExcited (argsort : List Nat → List Nat) (nelecRef : Nat → Nat × Nat) (norbRef : Nat → Nat) (st : State) (c : Call) :
    State :=
  let s := mkSolver nelecRef norbRef c
  if c.frag ∈ st.frags then { st with solvers := st.solvers.set (st.frags.idxOf c.frag) s }
  else
    let frags := st.frags ++ [c.frag]
    let solvers := st.solvers ++ [s]
    let idx := argsort frags
    ⟨idx.filterMap (fun i => frags[i]?), idx.filterMap (fun i => solvers[i]?)⟩

/-- excitations.py:126-133 `get_excited_orb_idx`: start offset of each fragment is `ni = nj - norb_ref`, and the boolean
mask over all orbitals. -/
def orbMask (norb : List Nat) (frags : List Nat) (p : Nat) : Bool :=
  frags.any (fun f => decide ((norb.take f).sum ≤ p ∧ p < (norb.take f).sum + norb.getD f 0))

/-- excitations.py:159: `list (np.where (idx)[0]) + list (np.where (~idx)[0])`. -/
def orbOrder (norb : List Nat) (frags : List Nat) : List Nat :=
  (List.range norb.sum).filter (orbMask norb frags) ++ (List.range norb.sum).filter (fun p => !orbMask norb frags p)

/-- excitations.py:158, 164-165: `[norb_excited,] + [n for ifrag, n in enumerate (norb_ref) if not (ifrag in excited_frags)]`. -/
def normRef (norb : List Nat) (frags : List Nat) : List Nat :=
  (List.range norb.sum).countP (orbMask norb frags) ::
    (norb.zipIdx.filterMap (fun (n, f) => if f ∈ frags then none else some n))

end Verif.ExcFrags
