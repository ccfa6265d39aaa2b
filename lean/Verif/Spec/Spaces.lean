import Verif.Model.Spaces
/-!
# What is said about rootspaces

Each fragment of a rootspace has an electron number `nelelas - charges`, a spin projection `spins` (in units of 1/2)
and a multiplicity `smults`.
-/
namespace Verif.Spec
open Verif.Spaces

/-- Fragment `i` has `na` alpha and `nb` beta electrons. -/
def FragOcc (sp : Space) (i : Nat) (na nb : Int) : Prop :=
  na + nb = el sp.nelelas i - el sp.charges i ∧ na - nb = el sp.spins i

/-- `na` alpha and `nb` beta electrons in `norb` orbitals can be in a state of multiplicity `smult = s + 1`: the
counts fit, the projection is one of `-s, -s+2, ..., s`, and there are enough electrons and enough holes to leave
`s` of them unpaired. -/
def Realizable (norb na nb smult : Int) : Prop :=
  0 ≤ na ∧ 0 ≤ nb ∧ na ≤ norb ∧ nb ≤ norb ∧ |na - nb| ≤ smult - 1 ∧ (smult - 1 - (na - nb)) % 2 = 0 ∧
  smult - 1 ≤ na + nb ∧ smult - 1 ≤ 2 * norb - (na + nb)

/-- Fragment `i` is in a possible state. -/
def FragOk (sp : Space) (i : Nat) : Prop :=
  ∃ na nb, FragOcc sp i na nb ∧ Realizable (el sp.nlas i) na nb (el sp.smults i)

/-- The arrays have one entry per fragment. -/
def Shaped (sp : Space) : Prop :=
  sp.nelelas.length = sp.nfrag ∧ sp.spins.length = sp.nfrag ∧ sp.smults.length = sp.nfrag ∧
  sp.charges.length = sp.nfrag

/-- `new` arises from `sp` by moving one electron, alpha if `alpha`, from fragment `i` to fragment `a`, the
multiplicity of both fragments changing by one, and both being in a possible state afterwards. -/
structure SingleExc (sp new : Space) (i a : Nat) (alpha : Bool) : Prop where
  shaped : Shaped new
  orbs : new.nlas = sp.nlas ∧ new.nelelas = sp.nelelas
  others : ∀ k, k ≠ i → k ≠ a →
    el new.charges k = el sp.charges k ∧ el new.spins k = el sp.spins k ∧ el new.smults k = el sp.smults k
  source : ∀ na nb, FragOcc sp i na nb →
    if alpha then FragOcc new i (na - 1) nb else FragOcc new i na (nb - 1)
  dest : ∀ na nb, FragOcc sp a na nb →
    if alpha then FragOcc new a (na + 1) nb else FragOcc new a na (nb + 1)
  mult : |el new.smults i - el sp.smults i| = 1 ∧ |el new.smults a - el sp.smults a| = 1
  ok : FragOk new i ∧ FragOk new a

/-- Total number of electrons. -/
def totalElectrons (sp : Space) : Int := sp.nelelas.sum - sp.charges.sum

/-- Total spin projection. -/
def totalSpin (sp : Space) : Int := sp.spins.sum

/-- Two rootspaces have the same quantum numbers in every fragment. -/
def SameNumbers (a b : Space) : Prop :=
  a.nfrag = b.nfrag ∧ ∀ i, i < a.nfrag →
    el a.spins i = el b.spins i ∧ el a.smults i = el b.smults i ∧ el a.charges i = el b.charges i

/-- What is assumed about the external counting of configuration state functions: it reports a nonzero number exactly
when the multiplicity is possible. -/
def CsfCounts (f : NCsf) : Prop :=
  ∀ norb na nb smult, (∃ k, f norb na nb smult = some k ∧ k ≠ 0) ↔ Realizable norb na nb smult

end Verif.Spec
