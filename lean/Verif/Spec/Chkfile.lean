import Verif.Model.Chkfile
/-!
# Specification of checkpointing: what was saved is what is loaded
-/
namespace Verif.Spec.Chkfile
open Verif.Chkfile
variable {V : Type}

/-- What a loaded object must contain if the attributes `val`, the fragment orbitals and the symmetry tag were saved:
every attribute equal to the saved one, none left unset. -/
def savedAttrs (kc ks kr : List String) (val : String → V) (fo : Option (List V)) (os : Option V) : Attrs V where
  config := kc.map (fun s => (s, some (val s)))
  saconstr := some (ks.map val)
  results := kr.map (fun s => (s, some (val s)))
  fragsOrbs := fo
  orbsym := os

/-- The content of one calculation: the value of each attribute, the fragment orbitals, the orbital symmetry tag and one
CI vector per fragment and root. -/
structure Job (V : Type) where
  val : String → V
  fragsOrbs : Option (List V)
  orbsym : Option V
  ci : List (List V)

/-- The calculation has `nfrags` fragments and as many roots as weights. -/
def Job.ok (len : V → Nat) (nfrags : Nat) (j : Job V) : Prop :=
  j.ci.length = nfrags ∧ 0 < len (j.val "weights") ∧ (∀ r ∈ j.ci, r.length = len (j.val "weights")) ∧
    ∀ l, j.fragsOrbs = some l → l.length = nfrags

/-- The LAS content as handed to the dump. -/
def Job.lasCalc (j : Job V) : Calc V :=
  ⟨getSaveData keysConfigLas keysSaLas keysResultsLas j.val, j.fragsOrbs, j.orbsym, j.ci⟩

/-- The LAS content as expected from the load. -/
def Job.asLas (j : Job V) : Attrs V × List (List V) :=
  (savedAttrs keysConfigLas keysSaLas keysResultsLas j.val j.fragsOrbs j.orbsym, j.ci)

/-- The LASSI content as handed to the dump. -/
def Job.lsiCalc (j : Job V) : Calc V :=
  ⟨getSaveData keysConfigLsi keysSaLas keysResultsLsi j.val, j.fragsOrbs, j.orbsym, j.ci⟩

/-- The LASSI content as expected from the load. -/
def Job.asLsi (j : Job V) : Attrs V × List (List V) :=
  (savedAttrs keysConfigLsi keysSaLas keysResultsLsi j.val j.fragsOrbs j.orbsym, j.ci)

end Verif.Spec.Chkfile
