import Mathlib.Data.List.Dedup
import Mathlib.Algebra.BigOperators.Group.List.Basic
/-!
# Model of the table of genealogical couplings

/repo/my_pyscf/lassi/s2.py:3-53. Python sets of paths are lists without duplicates. The order of the rows (50-52) is not modelled.
-/
namespace Verif.GenCoup

/-- Element of an array. -/
def at_ (p : List Int) (i : Nat) : Int := p.getD i 0

/-- s2.py:8: `local_2s`. -/
def twoS (smults : List Nat) : List Int := smults.map fun m : Nat => (m : Int) - 1

/-- s2.py:11: `left_ceiling`. -/
def leftCeil (l : List Int) (i : Nat) : Int := (l.take (i + 1)).sum

/-- s2.py:12-15: `right_ceiling`; the sum of the last `nfrags-1-i` elements. -/
def rightCeil (l : List Int) (g : Int) (i : Nat) : Int := g + (l.drop (i + 1)).sum

/-- s2.py:16: `ceiling`, with `g` for `global_smult-1`. -/
def ceiling (l : List Int) (g : Int) : List Int := (List.range l.length).map fun i => min (leftCeil l i) (rightCeil l g i)

/-- s2.py:18-29 `find_lowerable_nodes`. -/
def lowerable (l p : List Int) (i : Nat) : Bool :=
  decide (0 < i) && decide (i + 1 < l.length) && decide (1 < at_ p i) && decide (at_ p (i - 1) - at_ l i < at_ p i) &&
    decide (at_ p (i + 1) - at_ l (i + 1) < at_ p i)

/-- s2.py:43: a node is lowered. -/
def lower (p : List Int) (i : Nat) : List Int := p.set i (at_ p i - 2)

/-- s2.py:36-47: the paths of the next pass. -/
def nextPaths (l : List Int) (cur : List (List Int)) : List (List Int) :=
  (cur.flatMap fun p => ((List.range l.length).filter (lowerable l p)).map (lower p)).dedup

/-- s2.py:33-47: the loop, `fuel` passes. -/
def loop (l : List Int) : Nat → List (List Int) → List (List Int) → List (List Int)
  | 0, all, _ => all
  | fuel + 1, all, cur => if cur.isEmpty then all else loop l fuel (all ++ cur).dedup (nextPaths l cur)

/-- s2.py:3-53 `gencoup_table`; `none` if an assertion fails (9, 10). -/
def gencoupTable (smults : List Nat) (smult : Nat) : Option (List (List Int)) :=
  let l := twoS smults
  if l.sum % 2 ≠ (smult : Int) % 2 ∧ (smult : Int) ≤ l.sum + 1 then some (loop l smults.prod [] [ceiling l (smult - 1)]) else none

end Verif.GenCoup
