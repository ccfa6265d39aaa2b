import Verif.Spec.FciRdm
import Verif.Spec.HamS2
import Verif.Model.HalfOp
/-!
# Specification: what is assumed of PySCF's contraction routines, and when a CI array is a given vector
-/
namespace Verif.Spec.HalfOp
open Verif.Spec.Tdm Verif.Spec.FciRdm Verif.FciRdm Verif.Fockspace Verif.HalfOp

variable {K : Type} [Field K]

/-- The CI array holds the vector `φ` in the space of `e.1` spin-up and `e.2` spin-down electrons in `n` orbitals: the entry at the
addresses of two strings is the coefficient of their determinant. -/
def Holds (n : Nat) (e : Nat × Nat) (c : Arr K) (φ : Vec K) : Prop :=
  ∀ A ∈ strs n e.1, ∀ B ∈ strs n e.2, c ((strs n e.1).idxOf A) ((strs n e.2).idxOf B) = φ A B

/-- `p'_s q_s |ψ⟩`. -/
def exc (n : Nat) (s : Bool) (p q : Nat) (ψ : Vec K) : Vec K := cre n s p (ann n s q ψ)

/-- `Σ f[p,q] E_pq |ψ⟩` for the spins `s` with matrix elements `f s`. -/
def oneE (n : Nat) (f : Bool → M2 K) (ψ : Vec K) : Vec K := fun A B =>
  ∑ p ∈ Finset.range n, ∑ q ∈ Finset.range n, ∑ s : Bool, f s p q * exc n s p q ψ A B

/-- `Σ g_st[p,q,r,u] E^s_pq E^t_ru |ψ⟩`. -/
def twoE (n : Nat) (g : Bool → Bool → M4 K) (ψ : Vec K) : Vec K := fun A B =>
  ∑ p ∈ Finset.range n, ∑ q ∈ Finset.range n, ∑ r ∈ Finset.range n, ∑ u ∈ Finset.range n,
    ∑ s : Bool, ∑ t : Bool, g s t p q r u * exc n s p q (exc n t r u ψ) A B

/-- The symmetry of arrays that PySCF stores as lower triangles. -/
def Sym2 (f : M2 K) : Prop := ∀ p q, f p q = f q p
def Sym4 (g : M4 K) : Prop := ∀ p q r u, g p q r u = g q p r u ∧ g p q r u = g p q u r

/-- The documented results of PySCF's routines for symmetric matrix elements and a `link_index` built for these orbitals and
electrons: `contract_1e` gives `Σ f E_pq`, `contract_2e` gives `Σ g E_pq E_rs`; the unrestricted routines do it with one array per spin,
and for electrons of different spins with both orders of the two operators. -/
structure Contracts (P : Ops K) : Prop where
  c1 : ∀ f c n e, Sym2 f → Holds n e (P.c1 f c n e (n, e.1, e.2)) (oneE n (fun _ => f) (vec n e c))
  c2 : ∀ g c n e, Sym4 g → Holds n e (P.c2 g c n e (n, e.1, e.2)) (twoE n (fun _ _ => g) (vec n e c))
  c1u : ∀ fa fb c n e, Sym2 fa → Sym2 fb →
    Holds n e (P.c1u fa fb c n e (n, e.1, e.2)) (oneE n (fun s => if s then fb else fa) (vec n e c))
  c2u : ∀ gaa gab gbb c n e, Sym4 gaa → Sym4 gab → Sym4 gbb →
    Holds n e (P.c2u gaa gab gbb c n e (n, e.1, e.2))
      (twoE n (fun s t p q r u => if s then (if t then gbb p q r u else gab r u p q) else (if t then gab p q r u else gaa p q r u))
        (vec n e c))

/-- An array that holds a vector. -/
def arr (n : Nat) (e : Nat × Nat) (φ : Vec K) : Arr K := fun i j => φ ((strs n e.1).getD i 0) ((strs n e.2).getD j 0)

/-- Routines with these results. -/
def exactOps : Ops K where
  c1 f c n e _ := arr n e (oneE n (fun _ => f) (vec n e c))
  c2 g c n e _ := arr n e (twoE n (fun _ _ => g) (vec n e c))
  c1u fa fb c n e _ := arr n e (oneE n (fun s => if s then fb else fa) (vec n e c))
  c2u gaa gab gbb c n e _ := arr n e
    (twoE n (fun s t p q r u => if s then (if t then gbb p q r u else gab r u p q) else (if t then gab p q r u else gaa p q r u))
      (vec n e c))

theorem holds_arr (n : Nat) (e : Nat × Nat) (φ : Vec K) : Holds n e (arr n e φ) φ := by
  intro A hA B hB
  unfold arr
  have h : ∀ (l : List Nat) (x : Nat), x ∈ l → l.getD (l.idxOf x) 0 = x := by
    intro l x hx
    rw [List.getD_eq_getElem?_getD, List.getElem?_idxOf hx]
    rfl
  rw [h _ _ hA, h _ _ hB]

theorem exactOps_contracts : Contracts (exactOps : Ops K) := by
  refine ⟨?_, ?_, ?_, ?_⟩
  · intro f c n e _
    exact holds_arr n e (oneE n (fun _ => f) (vec n e c))
  · intro g c n e _
    exact holds_arr n e (twoE n (fun _ _ => g) (vec n e c))
  · intro fa fb c n e _ _
    exact holds_arr n e (oneE n (fun s => if s then fb else fa) (vec n e c))
  · intro gaa gab gbb c n e _ _ _
    exact holds_arr n e (twoE n (fun s t p q r u => if s then (if t then gbb p q r u else gab r u p q) else
      (if t then gab p q r u else gaa p q r u)) (vec n e c))

/-- `Σ h1[r] r'_s |ψ⟩ + Σ h3[p,q,r] p'_s q'_t r_t |ψ⟩`, over both spins `t`. -/
def halfCre (n : Nat) (s : Bool) (h1 : Nat → K) (h3 : Nat → Nat → Nat → K) (ψ : Vec K) : Vec K := fun A B =>
  (∑ r ∈ Finset.range n, h1 r * cre n s r ψ A B) +
  ∑ p ∈ Finset.range n, ∑ q ∈ Finset.range n, ∑ r ∈ Finset.range n, ∑ t : Bool, h3 p q r * cre n s p (exc n t q r ψ) A B

/-- `Σ h1[r] r_s |ψ⟩ + Σ h3[p,q,r] p'_t q_t r_s |ψ⟩`, over both spins `t`. -/
def halfAnn (n : Nat) (s : Bool) (h1 : Nat → K) (h3 : Nat → Nat → Nat → K) (ψ : Vec K) : Vec K := fun A B =>
  (∑ r ∈ Finset.range n, h1 r * ann n s r ψ A B) +
  ∑ p ∈ Finset.range n, ∑ q ∈ Finset.range n, ∑ r ∈ Finset.range n, ∑ t : Bool, h3 p q r * exc n t p q (ann n s r ψ) A B

/-- `Σ op[p,q] p'_s q'_t |ψ⟩`. -/
def pairCre (n : Nat) (s t : Bool) (op : M2 K) (ψ : Vec K) : Vec K := fun A B =>
  ∑ p ∈ Finset.range n, ∑ q ∈ Finset.range n, op p q * cre n s p (cre n t q ψ) A B

/-- `Σ op[p,q] p_t q_s |ψ⟩`. -/
def pairAnn (n : Nat) (s t : Bool) (op : M2 K) (ψ : Vec K) : Vec K := fun A B =>
  ∑ p ∈ Finset.range n, ∑ q ∈ Finset.range n, op p q * ann n t p (ann n s q ψ) A B

end Verif.Spec.HalfOp
