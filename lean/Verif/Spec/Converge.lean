import Verif.Model.Converge
/-!
# Specification for C45 and C55: the free iteration and the number of times a fragment is solved
-/
namespace Verif.Spec.Converge
open Verif.Converge

variable {S C E : Type}

/-- The energies, CI vectors and solver states before cycle `k`, if no test stops the iteration. -/
def cycleState (P : Product S C E) (e : E) (c : C) (s : S) : Nat → E × C × S
  | 0 => (e, c, s)
  | k + 1 =>
    let r := cycleState P e c s k
    P.shot k r.1 (P.guess r.2.1) r.2.2

/-- What the tests of cycle `k` see. -/
def cycleGradOk (P : Product S C E) (e : E) (c : C) (s : S) (k : Nat) : Bool := P.gradOk (P.guess (cycleState P e c s k).2.1)
def cycleSpreadOk (P : Product S C E) (e : E) (c : C) (s : S) (k : Nat) : Bool := P.spreadOk (cycleState P e c s k).1
def cycleFlags (P : Product S C E) (e : E) (c : C) (s : S) (k : Nat) : List Bool := P.flags (cycleState P e c s k).2.2

/-- Number of times fragment `f` is solved in cycles `it, …, it + n - 1`. -/
def solvedCount (nfrag f it n : Nat) : Nat := ((List.range' it n).filter (fun k => k % nfrag == f)).length

end Verif.Spec.Converge
