import Mathlib.Algebra.BigOperators.Group.List.Basic
/-!
# Specification: positions of multi-indices in flat arrays
-/
namespace Verif.Spec

/-- A multi-index inside a shape: as many entries as dimensions, each below its extent. -/
def InShape (t dims : List Nat) : Prop := List.Forall₂ (· < ·) t dims

/-- Position of a multi-index in row-major (C) order: the last index is fastest. -/
def posC : List Nat → List Nat → Nat
  | _ :: bs, d :: ds => d * bs.prod + posC bs ds
  | _, _ => 0

/-- Position of a multi-index in column-major (Fortran) order: the first index is fastest. -/
def posF : List Nat → List Nat → Nat
  | b :: bs, d :: ds => d + b * posF bs ds
  | _, _ => 0

example : posC [2, 3, 4] [1, 2, 3] = 23 ∧ posF [2, 3, 4] [1, 2, 3] = 23 ∧
    posC [2, 3, 4] [1, 0, 2] = 14 ∧ posF [2, 3, 4] [1, 0, 2] = 13 := by decide

end Verif.Spec
