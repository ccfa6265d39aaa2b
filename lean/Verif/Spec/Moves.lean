/-!
# Specification: which electrons an interaction of each class moves

The arrows in the docstrings of `_crunch_1c_`, `_crunch_1s_`, `_crunch_1s1c_` and `_crunch_2c_`
(/repo/my_pyscf/lassi/op_o1/stdm.py:785-945).
-/
namespace Verif.Spec

/-- A classified interaction: the class and the fragment (and spin) columns of its table row. -/
inductive Inter where
  /-- no fragment changes -/
  | null
  /-- `1c`: j --s--> i -/
  | c1 (i j : Nat) (s : Nat)
  /-- `1s`: j --a--> i, i --b--> j -/
  | s1 (i j : Nat)
  /-- `1s1c`: k --s--> i, j --(1-s)--> k -/
  | s1c1 (i j k : Nat) (s : Nat)
  /-- `2c`: j --s1--> i, l --s2--> k with (s1,s2) = aa, ab, bb for s = 0, 1, 2 -/
  | c2 (i j k l : Nat) (s : Nat)
deriving DecidableEq, Repr

/-- One electron of spin up/down leaves `src` and enters `dst`. -/
structure Move where
  up : Bool
  dst : Nat
  src : Nat
deriving DecidableEq, Repr

/-- The arrows of the docstrings. -/
def Inter.moves : Inter → List Move
  | .null => []
  | .c1 i j s => [⟨s == 0, i, j⟩]
  | .s1 i j => [⟨true, i, j⟩, ⟨false, j, i⟩]
  | .s1c1 i j k s => [⟨s == 0, i, k⟩, ⟨s != 0, k, j⟩]
  | .c2 i j k l s => [⟨s != 2, i, j⟩, ⟨s == 0, k, l⟩]

/-- The change of the number of spin-`up` electrons of fragment `f` by a list of moves. -/
def change (ms : List Move) (up : Bool) (f : Nat) : Int :=
  (ms.map (fun m => (if m.up = up ∧ m.dst = f then (1 : Int) else 0) -
    (if m.up = up ∧ m.src = f then 1 else 0))).sum

/-- The row is in normal form: the spin column is in range, every electron that moves changes fragment,
the fragments of `1s1c` are pairwise different, no fragment both gains and loses an electron in `2c`,
and for two electrons of the same spin the sources are in ascending and the destinations in descending
order (the sign convention). -/
def Inter.Normal : Inter → Prop
  | .null => True
  | .c1 i j s => i ≠ j ∧ s < 2
  | .s1 i j => i ≠ j
  | .s1c1 i j k s => i ≠ j ∧ i ≠ k ∧ j ≠ k ∧ s < 2
  | .c2 i j k l s => i ≠ j ∧ i ≠ l ∧ k ≠ j ∧ k ≠ l ∧ s < 3 ∧ (s ≠ 1 → j ≤ l ∧ k ≤ i)

end Verif.Spec
