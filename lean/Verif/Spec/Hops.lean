/-!
# Specification: what a two-body, spin-projection-conserving operator can do to fragment occupations
-/
namespace Verif.Spec

/-- Fragment occupations: alpha and beta electron counts. -/
structure Occ where
  a : List Nat
  b : List Nat
deriving DecidableEq, Repr

/-- The occupation table row of the C interface: one `(na, nb)` pair per fragment. -/
def Occ.row (o : Occ) : List (Int × Int) := (o.a.zip o.b).map (fun p => ((p.1 : Int), (p.2 : Int)))

/-- Move one electron: `x` and `x'` differ by taking one electron out of fragment `i` and putting one
into a different fragment `j`. -/
def MoveOne (x x' : List Nat) : Prop :=
  ∃ i j, i < x.length ∧ j < x.length ∧ i ≠ j ∧ 0 < x.getD i 0 ∧
    x' = (x.set i (x.getD i 0 - 1)).set j (x.getD j 0 + 1)

/-- One hop: one electron changes fragment, keeping its spin. -/
def Hop (o o' : Occ) : Prop :=
  (MoveOne o.a o'.a ∧ o'.b = o.b) ∨ (o'.a = o.a ∧ MoveOne o.b o'.b)

/-- `o'` is reached from `o` by exactly `n` hops. -/
inductive Hops : Nat → Occ → Occ → Prop
  | refl (o : Occ) : Hops 0 o o
  | step {n : Nat} {o o' o'' : Occ} : Hops n o o' → Hop o' o'' → Hops (n + 1) o o''

/-- An elementary operator: creation or destruction of a spin-up or spin-down electron. -/
structure Elem where
  cre : Bool
  up : Bool
  frag : Nat
deriving DecidableEq, Repr

/-- Change of the number of spin-`u` electrons of fragment `f` by a string of operators. -/
def net (ops : List Elem) (u : Bool) (f : Nat) : Int :=
  (ops.map (fun o => if o.up = u ∧ o.frag = f then (if o.cre then (1 : Int) else -1) else 0)).sum

/-- Number of operators of a string that act on fragment `f`. -/
def opsOn (ops : List Elem) (f : Nat) : Nat := (ops.filter (fun o => decide (o.frag = f))).length

/-- Number of creation minus destruction operators of spin `u` in a string. -/
def netSpin (ops : List Elem) (u : Bool) : Int :=
  (ops.map (fun o => if o.up = u then (if o.cre then (1 : Int) else -1) else 0)).sum

/-- Selection rules for a two-body operator between two rootspaces with given occupations and local
multiplicities: some string of at most four elementary operators, conserving the number of electrons
of each spin, changes the occupations by the right amount; and each elementary operator changes the
local 2S by at most one, so a fragment whose multiplicity changes by `k` needs at least `k` operators. -/
def TwoBodyAllowed (na nb sm na' nb' sm' : Nat → Int) (n : Nat) : Prop :=
  ∃ ops : List Elem, ops.length ≤ 4 ∧ (∀ o ∈ ops, o.frag < n) ∧
    netSpin ops true = 0 ∧ netSpin ops false = 0 ∧
    ∀ f, f < n → net ops true f = na f - na' f ∧ net ops false f = nb f - nb' f ∧
      (sm f - sm' f).natAbs ≤ opsOn ops f

end Verif.Spec
