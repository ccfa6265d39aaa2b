import Verif.Spec.Lstdm
import Verif.Model.LstdmKernel
/-!
# Specification: consistent data for all model states of all rootspaces
-/
namespace Verif.Spec.Lstdm
open Verif.Lstdm

variable {K : Type}

/-- The numbers of local roots and of electrons are given for every rootspace and fragment, and rootspaces that `urootstr` calls the
same for a fragment have the same numbers of local roots and of electrons of that fragment. -/
structure Consistent (k : Kern K) : Prop where
  lroots_len : ∀ c ∈ k.cols, c.length = k.nlas.length
  lroots_pos : ∀ c ∈ k.cols, ∀ n ∈ c, 0 < n
  nelec_len : ∀ r < k.cols.length, (k.nelec.getD r []).length = k.nlas.length
  same_lroots : ∀ f < k.nlas.length, ∀ r < k.cols.length, ∀ r' < k.cols.length, k.uroot f r = k.uroot f r' →
    (k.cols.getD r []).getD f 0 = (k.cols.getD r' []).getD f 0
  same_nelec : ∀ f < k.nlas.length, ∀ r < k.cols.length, ∀ r' < k.cols.length, k.uroot f r = k.uroot f r' →
    (k.nelec.getD r []).getD f (0, 0) = (k.nelec.getD r' []).getD f (0, 0)

/-- Rows of one table with equal 64-bit fingerprints have the same fragments and unique rootspaces. -/
def NoCollision (k : Kern K) : Prop :=
  ∀ tab ∈ k.tables, ∀ x ∈ tab, ∀ y ∈ tab,
    (k.fprint x = k.fprint y → (k.words x).1 = (k.words y).1) ∧ (k.fprintLT x = k.fprintLT y → (k.words x).2 = (k.words y).2)

/-- Number of local roots of fragment `f` in rootspace `r`. -/
def lroots (k : Kern K) (r f : Nat) : Nat := (k.cols.getD r []).getD f 0

/-- Row or column of the model state of rootspace `r` in which fragment `f` has local root `e f`: rootspaces in order, and within a
rootspace the local root of the first fragment runs fastest. -/
def address (k : Kern K) (r : Nat) (e : Nat → Nat) : Nat :=
  ((k.cols.take r).map List.prod).sum + ∑ f ∈ Finset.range k.nlas.length, e f * ((k.cols.getD r []).take f).prod

/-- The pairs of rootspaces that are left out because of the spin multiplicities have no matrix elements: with vectors `w f u a` of
fragment `f`, unique rootspace `u`, local root `a`, the overlap and the elements of the one- and two-body transition density matrices
of their products are all zero. Nothing is required when no multiplicities are given. -/
def Screens [CommRing K] (k : Kern K) (w : Nat → Nat → Nat → Verif.Spec.Tdm.Vec K) : Prop :=
  ∀ sm, k.smult = some sm → ∀ (r r' : Nat) (e e' : Nat → Nat), r < k.cols.length → r' < k.cols.length →
    (∀ f < k.nlas.length, e f < lroots k r f) → (∀ f < k.nlas.length, e' f < lroots k r' f) →
    Verif.SC.cplSpin k.nelecI sm (r, r') = false →
    let bra := Verif.Spec.Tdm.prodVec k.nlas (fun f => w f (k.uroot f r) (e f))
    let ket := Verif.Spec.Tdm.prodVec k.nlas (fun f => w f (k.uroot f r') (e' f))
    Verif.Spec.Tdm.ovl k.nlas.sum bra ket = 0 ∧
    (∀ s p q, p < k.nlas.sum → q < k.nlas.sum → Verif.Spec.Tdm.tdm1 k.nlas.sum bra ket s p q = 0) ∧
    (∀ s t p q x u, p < k.nlas.sum → q < k.nlas.sum → x < k.nlas.sum → u < k.nlas.sum →
      Verif.Spec.Tdm.tdm2 k.nlas.sum bra ket s t p q x u = 0)

/-- The object whose fragment tables hold the matrix elements of the vectors `w f u a` of fragment `f`, unique rootspace `u`, local
root `a`. -/
def kernOf [CommRing K] (nlas : List Nat) (cols : List (List Nat)) (nelec : List (List (Nat × Nat))) (uroot : Nat → Nat → Nat)
    (w : Nat → Nat → Nat → Verif.Spec.Tdm.Vec K) : Kern K where
  nlas := nlas
  cols := cols
  nelec := nelec
  uroot := uroot
  tabs f := tablesOf (nlas.getD f 0) (fun i => w f i.unpair.1 i.unpair.2)

end Verif.Spec.Lstdm
