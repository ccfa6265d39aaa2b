import Verif.Spec.FragSpin
import Verif.Spec.LstdmKernel
import Verif.Model.HamSpin
/-!
# Specification: fragment objects with spin multiplicities from which the matrices of all model states are computed
-/
namespace Verif.Spec.HamSpin
open Verif.Lstdm Verif.HamSpin Verif.Spec.FragTables Verif.Spec.FragSpin

/-- All fragment objects describe the same rootspaces; a rootspace and the unique rootspace that stands for it have as many local roots;
all multiplicities are given, and they and the manifolds do not contradict the vectors. -/
structure Ready (k : SpinKern) : Prop where
  rootspaces : 0 < k.nroots
  orbitals : ∀ f < k.nlas.length, 0 < k.nlas.getD f 0 ∧ (k.frag f).norb = k.nlas.getD f 0
  nroots : ∀ f < k.nlas.length, (k.frag f).nroots = k.nroots
  lroots : ∀ f < k.nlas.length, ∀ r < k.nroots, 0 < (k.frag f).lroots r ∧ (k.frag f).lroots ((k.frag f).rep r) = (k.frag f).lroots r
  given : ∀ f < k.nlas.length, ∀ r < k.nroots, ((k.frag f).smult r).isSome
  coherent : ∀ f < k.nlas.length, Coherent (k.frag f).toFrag
  mult : ∀ f < k.nlas.length, Multiplicities (k.frag f)
  man : ∀ f < k.nlas.length, Manifolds (k.frag f)

/-- Rows of one table for which Python's `hash` returns the same number have the same fragments and table entries. -/
def NoHashCollision (k : SpinKern) : Prop :=
  ∀ tab ∈ k.toKern.tables, ∀ x ∈ tab, ∀ y ∈ tab, k.spmanPrint x = k.spmanPrint y → k.spmanWords x = k.spmanWords y

end Verif.Spec.HamSpin
