import Verif.Model.Fsucc
import Mathlib.Analysis.SpecialFunctions.Trigonometric.Basic
import Mathlib.Data.List.Sort
/-!
# Model of the factorized unitary coupled-cluster operator (/repo/exploratory/unitary_cc/uccsd_sym0.py)

`float64` is `ℝ`. The in-place C routines act on the array that Python passes; a `psi` that is not a C-contiguous
`float64` array is copied by `np.ascontiguousarray` (see `op1uInplace`).
-/
namespace Verif.FsuccOp
open Verif.Fsucc

/-- One generator of `FSUCCOperator`: `a_idxs[k]`, `i_idxs[k]`, `amps[k]` (uccsd_sym0.py:160-167). -/
structure Gen where
  a : List Nat
  i : List Nat
  amp : ℝ

/-- uccsd_sym0.py:23-62 `_op1u_`: the array returned. -/
noncomputable def op1u (norb : Nat) (g : Gen) (transpose deriv : Bool) (psi : Nat → ℝ) : Nat → ℝ :=
  let sgn : ℝ := 1 - 2 * (if transpose then 1 else 0)
  let myAmp := sgn * (g.amp + (if deriv then 1 else 0) * Real.pi / 2)
  contract1u norb g.a g.i (Real.cos myAmp) (Real.sin myAmp) (List.range (iterations norb g.a g.i)) psi

/-- uccsd_sym0.py:23-62 `_op1u_`: the caller's array after the call, `contig` telling whether it is a C-contiguous
`float64` array. -/
noncomputable def op1uInplace (contig : Bool) (norb : Nat) (g : Gen) (transpose deriv : Bool) (psi : Nat → ℝ) :
    Nat → ℝ := if contig then op1u norb g transpose deriv psi else psi

/-- uccsd_sym0.py:98-127 `_projai_`. -/
def projaiPy (norb : Nat) (g : Gen) (psi : Nat → ℝ) : Nat → ℝ :=
  projai norb g.a g.i (List.range (2 ^ norb)) psi

/-- uccsd_sym0.py:169-177 `gen_fac`: the generator numbers visited. -/
def genFac (ngen : Nat) (reverse : Bool) (ustart : Option Nat) : List Nat :=
  if reverse then (List.range (match ustart with | none => ngen | some u => u + 1)).reverse
  else List.range' (ustart.getD 0) (ngen - ustart.getD 0)

/-- uccsd_sym0.py:284-288 `__call__`; `contig` as in `op1uInplace` for the array (or its copy) worked on. -/
noncomputable def call (contig : Bool) (norb : Nat) (gens : List Gen) (transpose : Bool) (psi : Nat → ℝ) : Nat → ℝ :=
  (genFac gens.length transpose none).foldl (fun psi ix =>
    match gens[ix]? with
    | none => psi
    | some g => op1uInplace contig norb g transpose false psi) psi

/-- uccsd_sym0.py:212-230: the loop of `get_deriv1`; state `(psi, _upsi)`. -/
noncomputable def derivLoop (norb : Nat) (gens : List Gen) (igend : Nat) (transpose full : Bool) :
    List Nat → (Nat → ℝ) → Option (Nat → ℝ) → (Nat → ℝ) × Option (Nat → ℝ)
  | [], psi, upsi => (psi, upsi)
  | ix :: l, psi, upsi =>
    match gens[ix]? with
    | none => (psi, upsi)
    | some g =>
      let upsi1 := if ix = igend then some psi else upsi
      let psi1 := if ix = igend then projaiPy norb g psi else psi
      let psi2 := op1u norb g transpose (ix == igend) psi1
      if ix = igend ∧ full = false then (psi2, upsi1)
      else derivLoop norb gens igend transpose full l psi2 upsi1

/-- uccsd_sym0.py:179-232 `get_deriv1`: the derivative and the cached `_upsi`; `none` is the `RuntimeError`. The
arrays are C-contiguous `float64`, and `_ustart` is a generator number (else the code raises `IndexError`). -/
noncomputable def getDeriv1 (norb : Nat) (gens : List Gen) (psi : Nat → ℝ) (igend : Nat) (transpose : Bool)
    (ustart : Option Nat) (full : Bool) : Option ((Nat → ℝ) × Option (Nat → ℝ)) :=
  if (match ustart with | none => false | some u => decide (u > igend)) then none
  else some (derivLoop norb gens igend transpose full (genFac gens.length transpose ustart) psi none)

/-- uccsd_sym0.py:236-248 `gen_deriv1`: the vectors yielded in turn; `none` once an exception is raised. -/
noncomputable def genDeriv1Loop (norb : Nat) (gens : List Gen) (transpose full : Bool) :
    List Nat → (Nat → ℝ) → Option Nat → Option (List (Nat → ℝ))
  | [], _, _ => some []
  | igend :: l, upsi, ustart =>
    match getDeriv1 norb gens upsi igend transpose ustart full with
    | none => none
    | some (dupsi, cache) =>
      match genDeriv1Loop norb gens transpose full l (cache.getD upsi) (some igend) with
      | none => none
      | some r => some (dupsi :: r)

/-- uccsd_sym0.py:236-248 `gen_deriv1`. -/
noncomputable def genDeriv1 (norb : Nat) (gens : List Gen) (transpose full : Bool) (psi : Nat → ℝ) :
    Option (List (Nat → ℝ)) :=
  genDeriv1Loop norb gens transpose full
    (if transpose then (List.range gens.length).reverse else List.range gens.length) psi none

/-- uccsd_sym0.py:250-256 `gen_partial` with `transpose=False`: the contents of the yielded array at each step. -/
noncomputable def genPartial (norb : Nat) : List Gen → (Nat → ℝ) → List (Nat → ℝ)
  | [], _ => []
  | g :: l, psi => op1u norb g false false psi :: genPartial norb l (op1u norb g false false psi)

/-- uccsd_sym0.py:258-282 `assert_sanity`: true if no assertion fails. `np.all(a_sorted==i_sorted)` for arrays of
different lengths is taken to be false, which is what NumPy gives or broadcasts to for duplicate-free arrays, unless
it raises. The two empty strings are rejected because `np.amax` raises. -/
def sane (norb : Nat) (gens : List (List Nat × List Nat)) : Bool :=
  gens.all (fun g =>
    !(g.1.isEmpty && g.2.isEmpty) &&
    (g.2 ++ g.1).all (· < norb) &&
    g.1.all (fun x => g.1.count x < 2) && g.2.all (fun x => g.2.count x < 2) &&
    (g.1.isEmpty || g.2.isEmpty || !(g.1.mergeSort == g.2.mergeSort))) &&
  (let keys := gens.map (fun g =>
      let x := g.1.mergeSort; let y := g.2.mergeSort
      if List.lex x y then (x, y) else (y, x));
    keys.eraseDups.length == keys.length)

/-- uccsd_sym0.py:64-96 `_op1h_spinsym`; `herm = [h0, h1, h2, …]`. -/
noncomputable def op1hLoop (norb : Nat) (psi : Nat → ℝ) : List (Nat → ℝ) → Nat → ℝ → (Nat → ℝ) → (Nat → ℝ)
  | [], _, _, hpsi => hpsi
  | hterm :: l, ix, fac, hpsi =>
    let nelec := ix + 1
    let fac := fac / nelec
    op1hLoop norb psi l (ix + 1) fac (fullhop norb nelec (fun k => fac * hterm k) psi hpsi)

/-- uccsd_sym0.py:64-96 `_op1h_spinsym`. -/
noncomputable def op1h (norb : Nat) (h0 : ℝ) (herm : List (Nat → ℝ)) (psi : Nat → ℝ) : Nat → ℝ :=
  op1hLoop norb psi herm 0 1 (fun D => h0 * psi D)

/-- `x.dot (y)` for arrays of length `2**norb`. -/
noncomputable def dot (norb : Nat) (x y : Nat → ℝ) : ℝ := ((List.range (2 ^ norb)).map fun D => x D * y D).sum

/-- uccsd_sym0.py:426-430 `obj_fun`: the energy. -/
noncomputable def objE (norb : Nat) (hop : (Nat → ℝ) → (Nat → ℝ)) (gens : List Gen) (psi0 : Nat → ℝ) : ℝ :=
  let upsi := call true norb gens false psi0
  dot norb upsi (hop upsi)

/-- uccsd_sym0.py:426-436 `obj_fun`: the gradient. -/
noncomputable def objJac (norb : Nat) (hop : (Nat → ℝ) → (Nat → ℝ)) (gens : List Gen) (psi0 : Nat → ℝ) :
    Option (List ℝ) :=
  let upsi := call true norb gens false psi0
  let hupsi := hop upsi
  let uhupsi := call true norb gens true hupsi
  (genDeriv1 norb gens false false psi0).map fun du =>
    List.zipWith (fun du uhu => 2 * dot norb du uhu) du (genPartial norb gens uhupsi)

end Verif.FsuccOp
