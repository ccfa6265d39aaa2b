import Mathlib.Algebra.Ring.Defs
/-!
# Model of the constant term of the Hamiltonian acting on CI vectors, for one fragment

/repo/my_pyscf/lassi/op_o1/hci/chc.py:452-489 (`_hconst_ci_`), the branch for one fragment (474-489), without SI vectors (then
/repo/my_pyscf/lassi/citools.py:223-245 returns its first argument). The configurations of all spaces are numbered alike, and arrays have
enough columns: shapes are not modelled.
-/
namespace Verif.HConst

variable {K : Type} [Ring K]

/-- A space: electrons, number of states and CI vectors by configuration and state. -/
structure Space (K : Type) where
  nelec : Nat × Nat
  nstates : Nat
  ci : Nat → Nat → K

/-- /repo/my_pyscf/lassi/op_o1/stdm.py:93-96: first column of space `r`, `offs_lroots[r,0]`. -/
def offs (S : List (Space K)) (r : Nat) : Nat := ((S.take r).map Space.nstates).sum

/-- chc.py:481-486: one ket added to the array. -/
def addKet (h0 : K) (S : List (Space K)) (nelec : Nat × Nat) (r : Nat) (x : Nat → Nat → K) : Option (Nat → Nat → K) :=
  match S[r]? with
  | none => none
  | some s => some (if nelec = s.nelec then fun c q => if offs S r ≤ q ∧ q < offs S r + s.nstates then x c q + h0 * s.ci c (q - offs S r) else x c q else x)

/-- chc.py:479-486: `hket_pabq` and the value of the variable `i` after the loop over kets (482 overwrites it). -/
def kets (h0 : K) (S : List (Space K)) (nelec : Nat × Nat) : List Nat → Nat → (Nat → Nat → K) → Option (Nat × (Nat → Nat → K))
  | [], i, x => some (i, x)
  | r :: rs, _, x =>
    match addKet h0 S nelec r x with
    | none => none
    | some x' => kets h0 S nelec rs (offs S r) x'

/-- chc.py:475-489: the loop over bras, from number `i` on; `hci` has `nbra` entries, and an index beyond is an error. -/
def bras (h0 : K) (S : List (Space K)) (kk : List Nat) (nbra : Nat) : List Nat → Nat → (Nat → Nat → Nat → K) → Option (Nat → Nat → Nat → K)
  | [], _, hci => some hci
  | b :: bs, i, hci =>
    match S[b]? with
    | none => none
    | some s =>
      match kets h0 S s.nelec kk i (fun _ _ => 0) with
      | none => none
      | some (i', x) => if i' < nbra then bras h0 S kk nbra bs (i + 1) (fun n c q => if n = i' then hci n c q + x c q else hci n c q) else none

/-- chc.py:452-489 `_hconst_ci_` for one fragment. -/
def hconst (h0 : K) (S : List (Space K)) (bb kk : List Nat) (hci : Nat → Nat → Nat → K) : Option (Nat → Nat → Nat → K) := bras h0 S kk bb.length bb 0 hci

end Verif.HConst
