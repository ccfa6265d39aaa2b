import Verif.Model.Spaces
/-!
# Spin projections and genealogical couplings

Spins are given as `s = 2S` and projections as `2M`, so all numbers are integers.
-/
namespace Verif.Spec
open Verif.Spaces (el)

/-- `m` assigns to each fragment one of its projections `-s, -s+2, ..., s`, and they add up to `M`. -/
def SpinVec (s : List Int) (M : Int) (m : List Int) : Prop :=
  m.length = s.length ∧ (∀ i, i < s.length → -el s i ≤ el m i ∧ el m i ≤ el s i ∧ (el s i - el m i) % 2 = 0) ∧
  m.sum = M

/-- The spins `a` and `b` can couple to the spin `c`. -/
def Triangle (a b c : Int) : Prop := |a - b| ≤ c ∧ c ≤ a + b ∧ (a + b - c) % 2 = 0

/-- `Coupled s t S`: coupling the fragment spins `s` one after the other, each changing the spin accumulated so far
by the corresponding entry of `t`, every step allowed by the triangle rule, ends with total spin `S`. -/
inductive Coupled : List Int → List Int → Int → Prop where
  | first (s : Int) : Coupled [s] [s] s
  | next {ss ts : List Int} {S : Int} (s t : Int) :
      Coupled ss ts S → Triangle S s (S + t) → Coupled (ss ++ [s]) (ts ++ [t]) (S + t)

/-- Every multiplicity is at least one. -/
def Mults (smults : List Int) : Prop := ∀ x ∈ smults, 1 ≤ x

/-- The local spins `smults - 1` can couple to total multiplicity `T`. -/
def Reaches (smults : List Int) (T : Int) : Prop := ∃ t, Coupled (smults.map (· - 1)) t (T - 1)

/-- A bound on local quantum numbers, per fragment. -/
def Bounded (le : Int → Int → Prop) (b : Option (List Int)) (x : List Int) : Prop :=
  ∀ bs, b = some bs → ∀ i, i < x.length → le (el x i) (el bs i)

end Verif.Spec
