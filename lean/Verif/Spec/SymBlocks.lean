import Mathlib.Data.List.Basic
/-!
# Specification for C49: which root space a product state belongs to, and its rank inside a symmetry block
-/
namespace Verif.Spec.SymBlocks

/-- The root space containing product state `p`: the product states of the first space come first, and so on. -/
def spaceOf : List Nat → Nat → Nat
  | [], _ => 0
  | n :: ns, p => if p < n then 0 else spaceOf ns (p - n) + 1

/-- Product state `p` has symmetry `sym`. -/
def HasSym {σ : Type} (spacesym : List σ) (nprods : List Nat) (sym : σ) (p : Nat) : Prop :=
  spacesym[spaceOf nprods p]? = some sym

instance {σ : Type} [DecidableEq σ] (spacesym : List σ) (nprods : List Nat) (sym : σ) (p : Nat) :
    Decidable (HasSym spacesym nprods sym p) := inferInstanceAs (Decidable (_ = _))

/-- Number of product states before `p` that have the same symmetry `sym`. -/
def rank {σ : Type} [DecidableEq σ] (spacesym : List σ) (nprods : List Nat) (sym : σ) (p : Nat) : Nat :=
  ((List.range p).filter (fun p' => decide (HasSym spacesym nprods sym p'))).length

end Verif.Spec.SymBlocks
