import Verif.Model.Coords
/-!
# Specification for C60: what a valid set of LASSIS coordinates is

A reference point is well formed if its vectors are orthonormal and no set has more vectors than coefficients. Coordinates
are in the gauge if the orbital rotation is antisymmetric and confined to the unique pairs, every change of CI vectors is
orthogonal to the current vectors, and the change of the SI vectors is antisymmetric within their span.
-/
namespace Verif.Spec.Coords
open Verif.Coords Finset

variable {K : Type}

def Orthonormal [Field K] (b : Blk K) : Prop :=
  ∀ q < b.nr, ∀ q' < b.nr, ∑ k ∈ range b.nc, b.c0 q k * b.c0 q' k = if q = q' then 1 else 0

/-- All the sets of vectors, in packing order. -/
def blocks (u : Ugg K) : List (Option (Blk K)) := u.ref.map some ++ u.sf ++ u.ch.flatMap (fun (b, c) => [b, c])

structure WellFormed [Field K] (u : Ugg K) : Prop where
  uniq_nodup : u.uniq.Nodup
  uniq_lower : ∀ p q, (p, q) ∈ u.uniq → (q, p) ∉ u.uniq
  ref_one : ∀ b ∈ u.ref, b.nr = 1
  orth : ∀ b, some b ∈ blocks u → Orthonormal b ∧ b.nr ≤ b.nc ∧ 0 < b.nr

/-- The two fragments of every charge hop have vectors of the same shape. -/
def SameShape (u : Ugg K) : Prop := ∀ p ∈ u.ch, shape p.1 = shape p.2 ∧ p.1.isSome = p.2.isSome

def InGauge [Field K] (u : Ugg K) (x : X K) : Prop :=
  (∀ p q, x.kappa p q = -x.kappa q p) ∧
  (∀ p q, (p, q) ∉ u.uniq → (q, p) ∉ u.uniq → x.kappa p q = 0) ∧
  x.ci.length = (blocks u).length ∧
  (∀ (i : Nat) b c, (blocks u)[i]? = some (some b) → x.ci[i]? = some c →
    ∀ r < b.nr, ∀ q < b.nr, ∑ k ∈ range b.nc, c r k * b.c0 q k = 0) ∧
  (∀ r < u.nrootsSi, ∀ c < u.nrootsSi,
    ∑ p ∈ range u.north, u.si0 p r * x.si p c = -∑ p ∈ range u.north, u.si0 p c * x.si p r)

/-- The same coordinates, wherever they are defined. -/
def SameX (u : Ugg K) (x y : X K) : Prop :=
  (∀ p q, x.kappa p q = y.kappa p q) ∧ x.ci.length = y.ci.length ∧
  (∀ (i : Nat) b c d, (blocks u)[i]? = some (some b) → x.ci[i]? = some c → y.ci[i]? = some d →
    ∀ r < b.nr, ∀ k < b.nc, c r k = d r k) ∧
  ∀ p < u.north, ∀ r < u.nrootsSi, x.si p r = y.si p r

end Verif.Spec.Coords
