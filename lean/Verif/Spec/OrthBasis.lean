import Mathlib.Algebra.BigOperators.Group.List.Basic
import Mathlib.Data.List.GetD
import Verif.Model.OrthBasis
/-!
# Addresses in a concatenation of blocks
-/
namespace Verif.Spec.OrthBasis

/-- Blocks of `n[0], n[1], ...` elements are stored one after the other; `addr` is the address of element `col` of
block `blk`. -/
def InBlock (n : List Nat) (addr blk col : Nat) : Prop :=
  blk < n.length ∧ col < n.getD blk 0 ∧ addr = (n.take blk).sum + col

/-- Two-level blocks: manifold `i` of shape `(a, b)` stores its `a*b` elements row by row. `addr` is the address of
element `(t, p)` of manifold `i`. -/
def InManifold (shapes : List (Nat × Nat)) (addr i t p : Nat) : Prop :=
  ∃ a b, shapes[i]? = some (a, b) ∧ t < a ∧ p < b ∧
    addr = ((shapes.take i).map (fun s => s.1 * s.2)).sum + (t * b + p)

open Verif.OrthBasis in
/-- Block-diagonal action: with the source blocks of sizes `it*p` and the target blocks of sizes `ft*p` each stored one
after the other, target block `k` is the matrix `omat` of manifold `k` applied to source block `k`. -/
def BlockAligned {K : Type} [NonUnitalNonAssocSemiring K] (mans : List (ShiftMan K)) (iarr farr : Nat → K) : Prop :=
  ∀ (k : Nat) (m : ShiftMan K), mans[k]? = some m → ∀ t < m.ft, ∀ x < m.p,
    farr (((mans.take k).map (fun m => m.ft * m.p)).sum + (t * m.p + x)) =
      ∑ s ∈ Finset.range m.it, m.omat t s * iarr (((mans.take k).map (fun m => m.it * m.p)).sum + (s * m.p + x))

open Verif.OrthBasis in
/-- What `get_orth_basis` passes to the basis object: all blocks of a manifold have the same number of products, a given
`xmat` and `umat` apart; no rootspace occurs twice. -/
structure ManOK {K : Type} (nprods : List Nat) (mans : List (Man K)) : Prop where
  size : ∀ m ∈ mans, ∀ b ∈ m.mBlocks, (b.map (fun r => nprods.getD r 0)).sum = m.rawSize nprods
  nodup : (mans.flatMap (fun m => m.mBlocks.flatten)).Nodup
  mem : ∀ r ∈ mans.flatMap (fun m => m.mBlocks.flatten), r < nprods.length

end Verif.Spec.OrthBasis
