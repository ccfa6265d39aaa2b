import Verif.Spec.Tdm
import Verif.Spec.States
import Verif.Model.Np
/-!
# Specification: rootspaces given by rotations, and quantities that are linear in bra and ket
-/
namespace Verif.Spec.Rotate
open Verif.Np Verif.Spec.Tdm

variable {K : Type} [CommRing K]

/-- The quantity is linear in the bra and in the ket (real vectors). -/
structure Bilinear (B : Vec K → Vec K → K) : Prop where
  left : ∀ (n : Nat) (a : Nat → K) (φ : Nat → Vec K) (χ : Vec K),
    B (fun X Y => ∑ c ∈ Finset.range n, a c * φ c X Y) χ = ∑ c ∈ Finset.range n, a c * B (φ c) χ
  right : ∀ (n : Nat) (a : Nat → K) (φ : Nat → Vec K) (χ : Vec K),
    B χ (fun X Y => ∑ c ∈ Finset.range n, a c * φ c X Y) = ∑ c ∈ Finset.range n, a c * B χ (φ c)

/-- The dictionaries of matrices: for every fragment different rootspaces, each with a square matrix of the size of the numbers of
local roots. -/
structure Matrices (cols : List (List Nat)) (nfrags : Nat) (umats : Nat → List (Nat × Nd K)) : Prop where
  keys : ∀ f < nfrags, ((umats f).map Prod.fst).Nodup
  root : ∀ f < nfrags, ∀ x ∈ umats f, x.1 < cols.length
  shape : ∀ f < nfrags, ∀ x ∈ umats f, x.2.shape = [(cols.getD x.1 []).getD f 0, (cols.getD x.1 []).getD f 0]

/-- The vectors `x f r a` of fragment `f`, rootspace `r`, local root `a` are the vectors `v f r a` rotated by the matrix, if the
dictionary of the fragment has one for the rootspace, and the same otherwise. -/
structure RotatedBy (cols : List (List Nat)) (nfrags : Nat) (umats : Nat → List (Nat × Nd K)) (v x : Nat → Nat → Nat → Vec K) : Prop where
  rot : ∀ f < nfrags, ∀ r U, (r, U) ∈ umats f → ∀ a < (cols.getD r []).getD f 0,
    x f r a = fun X Y => ∑ c ∈ Finset.range ((cols.getD r []).getD f 0), U.get [c, a] * v f r c X Y
  same : ∀ f < nfrags, ∀ r < cols.length, r ∉ (umats f).map Prod.fst → ∀ a, x f r a = v f r a

/-- The array with two axes of model states holds the quantities `B t bra ket` of the products of fragment vectors; `t` stands for the
indices on the other axes. -/
structure Holds (ns : List Nat) (cols : List (List Nat)) (rest : List Nat) (T : Nd K) (B : List Nat → Vec K → Vec K → K)
    (xb xk : Nat → Nat → Nat → Vec K) : Prop where
  shape : T.shape = (cols.map List.prod).sum :: (cols.map List.prod).sum :: rest
  get : ∀ r r' d d' t, r < cols.length → r' < cols.length → InShape d (cols.getD r []) → InShape d' (cols.getD r' []) → InShape t rest →
    T.get (stateIndex cols r d :: stateIndex cols r' d' :: t) =
      B t (prodVec ns (fun f => xb f r (d.getD f 0))) (prodVec ns (fun f => xk f r' (d'.getD f 0)))

end Verif.Spec.Rotate
