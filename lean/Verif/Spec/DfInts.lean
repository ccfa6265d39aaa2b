import Mathlib.Algebra.BigOperators.Group.Finset.Basic
import Mathlib.Algebra.Field.Defs
import Mathlib.Order.Defs.LinearOrder
/-!
# Specification for C122: density-fitted integrals

Row `P` of the array `b` holds the lower triangle of a symmetric matrix of vectors `(P|μν)`.
-/
namespace Verif.Spec.DfInts

variable {K : Type} [Field K]

/-- The element `μ, ν` of the symmetric matrix in row `P`. -/
def full (b : Nat → Nat → K) (P μ ν : Nat) : K :=
  b P (max μ ν * (max μ ν + 1) / 2 + min μ ν)

/-- The integrals `(μν|λκ)`. -/
def eri (naux : Nat) (b : Nat → Nat → K) (μ ν l k : Nat) : K :=
  ∑ P ∈ Finset.range naux, full b P μ ν * full b P l k

/-- The vectors with one index contracted with a matrix. -/
def half (nao : Nat) (b : Nat → Nat → K) (C : Nat → Nat → K) (i u P : Nat) : K :=
  ∑ j ∈ Finset.range nao, full b P i j * C j u

/-- The passes of a parallel loop of `n` iterations over some number of threads: each iteration is executed exactly once. -/
def Schedule (n nthreads : Nat) (sched : List (Nat × Nat)) : Prop :=
  (sched.map Prod.snd).Perm (List.range n) ∧ ∀ it ∈ sched, it.1 < nthreads

/-- The rows of the array are cut into consecutive blocks, given by the numbers of their rows and the rows. -/
def Cut (b : Nat → Nat → K) : Nat → List (Nat × (Nat → Nat → K)) → Prop
  | _, [] => True
  | o, (n, c) :: rest => (∀ P < n, ∀ k, c P k = b (o + P) k) ∧ Cut b (o + n) rest

/-- The arrays are so small that positions in them are representable in 32 bits, and the number of pairs in an `int`. -/
structure Small (nao naux nmo nthreads : Nat) : Prop where
  pairs : nao * (nao + 1) < 2 ^ 31
  result : nao * nmo * naux ≤ 2 ^ 32
  work : nthreads * nao * (naux + nmo) ≤ 2 ^ 32

/-- Pairs whose vector of `naux` elements has a norm of at most `thresh` have a vanishing vector. -/
def Gap [LinearOrder K] (thresh : K) (nao naux : Nat) (b : Nat → Nat → K) : Prop :=
  ∀ i < nao, ∀ j < nao, (∑ Q ∈ Finset.range naux, full b Q i j * full b Q i j) ≤ thresh * thresh →
    ∀ P < naux, full b P i j = 0

end Verif.Spec.DfInts
