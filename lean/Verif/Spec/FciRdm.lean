import Verif.Spec.Tdm
import Verif.Model.FciRdm
/-!
# Specification: CI arrays as vectors, and what is assumed of the PySCF density-matrix routines
-/
namespace Verif.Spec.FciRdm
open Verif.Spec.Tdm Verif.FciRdm Verif.Fockspace

variable {K : Type} [CommRing K]

/-- The vector of a CI array: the coefficient of the pair of strings `(A, B)` with the given numbers of electrons in `n` orbitals is
the entry at their addresses (`strs` lists the strings in increasing order, as PySCF's `cistring` does). -/
def vec (n : Nat) (e : Nat × Nat) (c : Arr K) : Vec K := fun A B =>
  if A ∈ strs n e.1 ∧ B ∈ strs n e.2 then c ((strs n e.1).idxOf A) ((strs n e.2).idxOf B) else 0

/-- One more electron of spin `s` (`true` is spin down). -/
def plus (e : Nat × Nat) (s : Bool) : Nat × Nat := (e.1 + (if s then 0 else 1), e.2 + (if s then 1 else 0))

/-- The documented results of PySCF's routines, for vectors `bra`, `ket` with the same numbers of electrons and a `link_index` built
for these orbitals and electrons: `make_rdm1_spin1` gives `[p, q] = ⟨q' p⟩`; `make_rdm12_spin1` with the same-spin kernels
gives that and `[p, q, r, u] = ⟨p' q r' u⟩ = ⟨p' r' u q⟩ + δ_qr ⟨p' u⟩`, with the mixed-spin kernel `⟨p'_a q_a r'_b u_b⟩`. -/
structure Right (P : Fci K) : Prop where
  rdm1 : ∀ s n e bra ket p q, p < n → q < n →
    P.rdm1 s bra ket n e (n, e.1, e.2) p q = tdm1 n (vec n e bra) (vec n e ket) s q p
  same1 : ∀ (s : Bool) n e bra ket p q, p < n → q < n →
    (P.rdm12 (if s then Fn.b else Fn.a) bra ket n e (n, e.1, e.2) 2).1 p q = tdm1 n (vec n e bra) (vec n e ket) s q p
  same2 : ∀ (s : Bool) n e bra ket p q r u, p < n → q < n → r < n → u < n →
    (P.rdm12 (if s then Fn.b else Fn.a) bra ket n e (n, e.1, e.2) 2).2 p q r u =
      tdm2 n (vec n e bra) (vec n e ket) s s p q r u + if q = r then tdm1 n (vec n e bra) (vec n e ket) s p u else 0
  mixed : ∀ n e bra ket p q r u, p < n → q < n → r < n → u < n →
    (P.rdm12 Fn.ab bra ket n e (n, e.1, e.2) 0).2 p q r u = tdm2 n (vec n e bra) (vec n e ket) false true p q r u

/-- Routines with these results. -/
def exactFci : Fci K where
  rdm1 s bra ket n e _ := fun p q => tdm1 n (vec n e bra) (vec n e ket) s q p
  rdm12 fn bra ket n e _ _ :=
    match fn with
    | Fn.ab => (fun _ _ => 0, fun p q r u => tdm2 n (vec n e bra) (vec n e ket) false true p q r u)
    | Fn.a => (fun p q => tdm1 n (vec n e bra) (vec n e ket) false q p, fun p q r u =>
        tdm2 n (vec n e bra) (vec n e ket) false false p q r u + if q = r then tdm1 n (vec n e bra) (vec n e ket) false p u else 0)
    | Fn.b => (fun p q => tdm1 n (vec n e bra) (vec n e ket) true q p, fun p q r u =>
        tdm2 n (vec n e bra) (vec n e ket) true true p q r u + if q = r then tdm1 n (vec n e bra) (vec n e ket) true p u else 0)

theorem exactFci_right : Right (exactFci : Fci K) := by
  refine ⟨fun _ _ _ _ _ _ _ _ _ => rfl, ?_, ?_, fun _ _ _ _ _ _ _ _ _ _ _ _ => rfl⟩
  · intro s; cases s <;> intros <;> rfl
  · intro s; cases s <;> intros <;> rfl

end Verif.Spec.FciRdm
