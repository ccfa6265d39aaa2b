/-!
# Specification: sign of a reordering of fermion operators

A product of anticommuting operators is a word (a list of distinct letters).  Exchanging two
neighbouring letters costs one factor of -1.  `Swaps n w w'` says that the word `w` can be turned
into `w'` by exactly `n` such exchanges.  Everything the sign theorems say is phrased with it:
*any* way of anticommuting `w` into `w'` has the sign that the code returns.
-/
namespace Verif.Spec

/-- `Swaps n w w'`: `n` adjacent exchanges turn the word `w` into the word `w'`. -/
inductive Swaps {α : Type} : Nat → List α → List α → Prop
  | refl (w : List α) : Swaps 0 w w
  | step {n : Nat} {w : List α} (pre : List α) (a b : α) (post : List α) :
      Swaps n w (pre ++ a :: b :: post) → Swaps (n + 1) w (pre ++ b :: a :: post)

/-- `sgn` is the sign of the reordering of `w` into `w'`: the reordering is possible, and whichever
way it is carried out, an even number of exchanges gives `+1` and an odd number `-1`. -/
def IsReorderSign {α : Type} (w w' : List α) (sgn : Int) : Prop :=
  (∃ n, Swaps n w w') ∧ ∀ n, Swaps n w w' → sgn = (-1) ^ n

/-- A creation (`cre = true`) or destruction operator of a given fragment and spin; `idx` makes
the operators of one block distinct. -/
structure Op where
  cre : Bool
  frag : Nat
  up : Bool
  idx : Nat
deriving DecidableEq, Repr

/-- The `n` creation operators of spin `up` of fragment `f`. -/
def block (f : Nat) (up : Bool) (n : Nat) : List Op :=
  (List.range n).map (fun k => ⟨true, f, up, k⟩)

/-- `... a2' b2' a1' b1' a0' b0' |vac>` -/
def interleavedWord (na nb : List Nat) : List Op :=
  (List.range na.length).reverse.flatMap
    (fun f => block f true (na.getD f 0) ++ block f false (nb.getD f 0))

/-- `... a2' a1' a0' ... b2' b1' b0' |vac>` -/
def spinSeparatedWord (na nb : List Nat) : List Op :=
  (List.range na.length).reverse.flatMap (fun f => block f true (na.getD f 0)) ++
  (List.range na.length).reverse.flatMap (fun f => block f false (nb.getD f 0))

/-- The operators of the fragments listed in `fs`, one block per fragment, in that order. -/
def fragWord (nelec : List Nat) (fs : List Nat) : List Op :=
  fs.flatMap (fun f => block f true (nelec.getD f 0))

/-- All fragments `n-1, ..., 1, 0` from left to right (fragment 0 next to the vacuum). -/
def descending (n : Nat) : List Nat := (List.range n).reverse

/-- The word with the fragments satisfying `p` gathered next to the lowest of them: spectators above
the lowest involved fragment first, then the involved fragments, then the spectators below. -/
def gatheredFrags (n : Nat) (p : Nat → Bool) : List Nat :=
  let low := ((List.range n).find? p).getD n
  (descending n).filter (fun f => !p f && decide (low < f)) ++
  (descending n).filter p ++
  (descending n).filter (fun f => !p f && decide (f < low))

end Verif.Spec
