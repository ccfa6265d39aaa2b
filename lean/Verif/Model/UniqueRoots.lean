import Mathlib.Data.List.Range
/-!
# Model of `get_unique_roots`

/repo/my_pyscf/lassi/citools.py:126-197. CI vectors are floating-point arrays; the model keeps what the control flow
depends on: the tags compared exactly and, for every pair of roots, the outcomes of the numerical tests, which are
arbitrary (in particular not assumed transitive or symmetric).
-/
namespace Verif.UniqueRoots

/-- The exactly compared data of a root (citools.py:164-167). -/
structure Tags where
  nelec : Nat × Nat
  lroots : Nat
  shape : List Nat
  discriminator : Int
deriving DecidableEq

/-- Outcomes of the numerical tests on a pair of roots (citools.py:169-191). `shares` is `none` when NumPy raises
`TooHardError`; `U` is the type of rotation matrices. -/
structure Tests (U : Type) where
  isSame : Bool
  shares : Option Bool
  allEq : Bool
  allClose : Bool
  ovlpEye : Bool
  err1 : Bool
  err2 : Bool
  rot : U

/-- Loop state: `root_unique`, `unique_root`, `umat_root`. -/
structure State (U : Type) where
  unique : Nat → Bool
  rep : Nat → Nat
  umat : Nat → Option U

variable {U : Type}

/-- citools.py:168-191: the value of `isequal` and the rotation stored for `j`, if any. (The `assert` on the number
of singular values of a square matrix is not modelled.) -/
def isequal (screen : Bool) (t : Tests U) : Bool × Option U :=
  let eq0 := if t.isSame then true else
    match t.shares with
    | some b => b
    | none => false
  if !eq0 && screen then
    if t.allEq then (true, none)
    else if t.allClose then (true, none)
    else if t.ovlpEye then (true, none)
    else
      let eq1 := t.err1 && t.err2
      (eq1, if eq1 then some t.rot else none)
  else (eq0, none)

/-- citools.py:161-194: one pass through the loop body. -/
def step (tags : Nat → Tags) (tests : Nat → Nat → Tests U) (screen : Bool) (s : State U) (p : Nat × Nat) : State U :=
  let (i, j) := p
  if !s.unique i then s
  else if !s.unique j then s
  else if (tags i).nelec ≠ (tags j).nelec then s
  else if (tags i).lroots ≠ (tags j).lroots then s
  else if (tags i).shape ≠ (tags j).shape then s
  else if (tags i).discriminator ≠ (tags j).discriminator then s
  else
    let (eq, rot) := isequal screen (tests i j)
    let s := match rot with
      | some u => { s with umat := fun k => if k = j then some u else s.umat k }
      | none => s
    if eq then
      { s with unique := fun k => if k = j then false else s.unique k,
               rep := fun k => if k = j then i else s.rep k }
    else s

/-- `itertools.combinations (range (n), 2)` in its lexicographic order. -/
def combinations2 (n : Nat) : List (Nat × Nat) :=
  (List.range n).flatMap fun i => ((List.range n).filter (fun j => i < j)).map fun j => (i, j)

/-- citools.py:126-197 `get_unique_roots`; `none` when the final `assert` fails. -/
def getUniqueRoots (tags : Nat → Tags) (tests : Nat → Nat → Tests U) (screen : Bool) (nroots : Nat) : Option (State U) :=
  let s := (combinations2 nroots).foldl (step tags tests screen) ⟨fun _ => true, fun j => j, fun _ => none⟩
  if (List.range nroots).all (fun i => s.unique (s.rep i)) then some s else none

end Verif.UniqueRoots
