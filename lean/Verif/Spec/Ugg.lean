import Mathlib.Data.Nat.Init
/-!
# What the orbital rotations of a LASSCF problem are

Orbitals are numbered: inactive, then the fragments one after the other, then virtual. Rotations within a class do not change
the energy; a rotation between two classes is one coordinate.
-/
namespace Verif.Spec.Ugg

/-- Number of the fragment an active orbital belongs to (counted from the first active orbital); the number of fragments if the
orbital is behind them all. -/
def frag : List Nat → Nat → Nat
  | [], _ => 0
  | n :: l, p => if p < n then 0 else frag l (p - n) + 1

/-- Class of an orbital: 0 inactive, `i + 1` fragment `i`, number of fragments plus one virtual. -/
def cls (ncore : Nat) (ncas : List Nat) (p : Nat) : Nat := if p < ncore then 0 else frag ncas (p - ncore) + 1

/-- The orbital is active. -/
def Active (ncore : Nat) (ncas : List Nat) (p : Nat) : Prop := ncore ≤ p ∧ p < ncore + ncas.sum

end Verif.Spec.Ugg
