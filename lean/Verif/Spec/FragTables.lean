import Verif.Spec.FciRdm
import Verif.Spec.Lstdm
import Verif.Model.FragTables
/-!
# Specification: what the tables of one fragment must hold
-/
namespace Verif.Spec.FragTables
open Verif.Spec.Tdm Verif.Spec.FciRdm Verif.Spec.Lstdm Verif.FragTables Verif.FciRdm

variable {K : Type} [CommRing K]

/-- The assumptions on the PySCF routines, with the documented result of `direct_spin1.trans_rdm12s` (vectors with the same numbers
of electrons): `dm1[p,q] = ⟨q' p⟩`, `dm2[p,q,r,u] = ⟨p'_s r'_t u_t q_s⟩` for `st` = aa, ab, ba, bb. -/
structure Right12 (P : Ext K) : Prop where
  base : Right P.toFci
  one : ∀ s n e bra ket p q, p < n → q < n →
    (P.rdm12s bra ket n e (n, e.1, e.2)).1 (ix s) p q = tdm1 n (vec n e bra) (vec n e ket) s q p
  two : ∀ s t n e bra ket p q r u, p < n → q < n → r < n → u < n →
    (P.rdm12s bra ket n e (n, e.1, e.2)).2 (2 * ix s + ix t) p q r u = tdm2 n (vec n e bra) (vec n e ket) s t p q r u

/-- Routines with these results. -/
def exactExt : Ext K where
  toFci := exactFci
  rdm12s bra ket n e _ := (fun s p q => tdm1 n (vec n e bra) (vec n e ket) (s != 0) q p,
    fun st p q r u => tdm2 n (vec n e bra) (vec n e ket) (st / 2 != 0) (st % 2 != 0) p q r u)

theorem exactExt_right : Right12 (exactExt : Ext K) := by
  refine ⟨exactFci_right, ?_, ?_⟩
  · intro s; cases s <;> intros <;> rfl
  · intro s t; cases s <;> cases t <;> intros <;> rfl

/-- What the search for unique rootspaces provides: every rootspace is represented by a unique rootspace with the same numbers
of electrons and of local roots; a unique rootspace represents itself. Electrons fit into the orbitals. -/
structure Coherent (F : Frag K) : Prop where
  rep : ∀ i < F.nroots, F.rep i < F.nroots ∧ F.unique (F.rep i) = true
  self : ∀ i < F.nroots, F.unique i = true → F.rep i = i
  nelec : ∀ i < F.nroots, F.nelec (F.rep i) = F.nelec i
  fits : ∀ i < F.nroots, (F.nelec i).1 ≤ F.norb ∧ (F.nelec i).2 ≤ F.norb

/-- CI vector of local root `a` of rootspace `i`. -/
def civ (F : Frag K) (i a : Nat) : Vec K := vec F.norb (F.nelec i) (F.ci i a)

/-- The tables `M`, addressed by the positions of rootspaces `i`, `j` in the list of unique ones, hold the matrix elements between all
local roots of `i` and `j`, for every kind of operator that connects their numbers of electrons. -/
structure Filled (F : Frag K) (M : Mats K) : Prop where
  ovlp : ∀ i < F.nroots, ∀ j < F.nroots, F.unique i = true → F.unique j = true → F.nelec i = F.nelec j →
    ∃ d, M.ovlp (F.urootIdx i) (F.urootIdx j) = some d ∧
      ∀ a < F.lroots i, ∀ b < F.lroots j, d a b = ovl F.norb (civ F i a) (civ F j b)
  h : ∀ s, ∀ i < F.nroots, ∀ j < F.nroots, F.unique i = true → F.unique j = true → plus (F.nelec i) s = F.nelec j →
    ∃ d, M.h (ix s) (F.urootIdx i) (F.urootIdx j) = some d ∧
      ∀ a < F.lroots i, ∀ b < F.lroots j, ∀ r < F.norb, d a b r = ovl F.norb (civ F i a) (ann F.norb s r (civ F j b))
  phh : ∀ s, ∀ i < F.nroots, ∀ j < F.nroots, F.unique i = true → F.unique j = true → plus (F.nelec i) s = F.nelec j →
    ∃ d, M.phh (ix s) (F.urootIdx i) (F.urootIdx j) = some d ∧
      ∀ a < F.lroots i, ∀ b < F.lroots j, ∀ t, ∀ r < F.norb, ∀ p < F.norb, ∀ q < F.norb, d a b (ix t) r p q =
        ovl F.norb (ann F.norb t p (civ F i a)) (ann F.norb t q (ann F.norb s r (civ F j b)))
  hh : ∀ s t, (s = true → t = true) → ∀ i < F.nroots, ∀ j < F.nroots, F.unique i = true → F.unique j = true →
    plus (plus (F.nelec i) s) t = F.nelec j →
    ∃ d, M.hh (ix s + ix t) (F.urootIdx i) (F.urootIdx j) = some d ∧
      ∀ a < F.lroots i, ∀ b < F.lroots j, ∀ p < F.norb, ∀ q < F.norb, d a b p q =
        ovl F.norb (civ F i a) (ann F.norb t p (ann F.norb s q (civ F j b)))
  sm : ∀ i < F.nroots, ∀ j < F.nroots, F.unique i = true → F.unique j = true → plus (F.nelec i) false = plus (F.nelec j) true →
    ∃ d, M.sm (F.urootIdx i) (F.urootIdx j) = some d ∧
      ∀ a < F.lroots i, ∀ b < F.lroots j, ∀ p < F.norb, ∀ q < F.norb, d a b p q =
        ovl F.norb (ann F.norb true p (civ F i a)) (ann F.norb false q (civ F j b))
  dm1 : ∀ i < F.nroots, ∀ j < F.nroots, F.unique i = true → F.unique j = true → F.nelec i = F.nelec j → j ≤ i →
    ∃ d, M.dm1 (F.urootIdx i) (F.urootIdx j) = some d ∧
      ∀ a < F.lroots i, ∀ b < F.lroots j, ∀ s, ∀ p < F.norb, ∀ q < F.norb, d a b (ix s) p q =
        tdm1 F.norb (civ F i a) (civ F j b) s p q
  dm2 : ∀ i < F.nroots, ∀ j < F.nroots, F.unique i = true → F.unique j = true → F.nelec i = F.nelec j → j ≤ i →
    ∃ d, M.dm2 (F.urootIdx i) (F.urootIdx j) = some d ∧
      ∀ a < F.lroots i, ∀ b < F.lroots j, ∀ s t, ∀ p < F.norb, ∀ q < F.norb, ∀ r < F.norb, ∀ u < F.norb,
        d a b (2 * ix s + ix t) p q r u = tdm2 F.norb (civ F i a) (civ F j b) s t p q r u

end Verif.Spec.FragTables
