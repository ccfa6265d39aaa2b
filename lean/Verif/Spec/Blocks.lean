import Mathlib.Data.List.Basic
/-!
# Specification: copying a compressed array onto the selected positions
-/
namespace Verif.Spec

/-- Whether position `x` is selected by a mask. -/
def Selected (mask : List Bool) (x : Nat) : Prop := mask.getD x false = true

/-- Number of selected positions before `x`: the place of `x` in the compressed array. -/
def rank (mask : List Bool) (x : Nat) : Nat := (mask.take x).count true

/-- The blocks (`dst` position, `src` position, length) copy a compressed array onto the selected positions:
no block is empty, block entries are selected, lie at their own place in the compressed array, and every selected position lies
in exactly one block. -/
structure Copies (mask : List Bool) (dst src len : List Nat) : Prop where
  same : src.length = dst.length ∧ len.length = dst.length
  nonempty : ∀ i, i < dst.length → 1 ≤ len.getD i 0
  sound : ∀ i k, i < dst.length → k < len.getD i 0 →
    Selected mask (dst.getD i 0 + k) ∧ src.getD i 0 + k = rank mask (dst.getD i 0 + k)
  complete : ∀ x, Selected mask x →
    ∃! i, i < dst.length ∧ dst.getD i 0 ≤ x ∧ x < dst.getD i 0 + len.getD i 0

end Verif.Spec
