import Mathlib.Algebra.Group.Defs
/-!
# Model of the unitary group generators of LASSCF
(/repo/my_pyscf/mcscf/lasscf_sync_o0.py:334-537, /repo/my_pyscf/mcscf/laspscf.py:14-33)

Index masks are functions of row and column; they matter only below `nmo`. Orbital lists hold non-negative integers.
-/
namespace Verif.Ugg

abbrev Mask := Nat → Nat → Bool

/-- `idx[r0:r1,c0:c1] = v` for a mask of `n` rows and columns. -/
def setRect (n : Nat) (v : Bool) (r0 r1 c0 c1 : Nat) (A : Mask) : Mask := fun p q =>
  if r0 ≤ p ∧ p < r1 ∧ p < n ∧ c0 ≤ q ∧ q < c1 ∧ q < n then v else A p q

/-- lasscf_sync_o0.py:354: `np.cumsum ([0] + ncas_sub.tolist ()) + ncore` -/
def subSlice (ncore : Nat) : List Nat → List Nat
  | [] => [ncore]
  | n :: l => ncore :: subSlice (ncore + n) l

/-- lasscf_sync_o0.py:334-362 `all_nonredundant_idx` -/
def allNonredundant (nmo ncore : Nat) (ncas : List Nat) : Mask :=
  let nocc := ncore + ncas.sum
  let idx : Mask := fun _ _ => false
  let idx := setRect nmo true ncore nmo 0 ncore idx
  let idx := setRect nmo true nocc nmo ncore nocc idx
  let ss := subSlice ncore ncas
  let idx := setRect nmo true (ss.getLastD 0) nmo 0 (ss.headD 0) idx
  (List.range ncas.length).foldl (fun idx ix1 =>
    (List.range ix1).foldl (fun idx ix2 =>
      setRect nmo true (ss.getD ix1 0) (ss.getD (ix1 + 1) 0) (ss.getD ix2 0) (ss.getD (ix2 + 1) 0) idx) idx) idx

/-- lasscf_sync_o0.py:406-411 `_init_nonfrozen_orb`: `nfrz_orb_idx`. `none` is the IndexError of a frozen orbital that does not
exist. -/
def nfrzOrbIdx (nmo ncore : Nat) (ncas : List Nat) (frozen : Option (List Nat)) : Option Mask :=
  let idx := allNonredundant nmo ncore ncas
  match frozen with
  | none => some idx
  | some fr => if fr.all (· < nmo) then some fun p q => if p ∈ fr ∨ q ∈ fr then false else idx p q else none

/-- lasscf_sync_o0.py:413-415 `_init_orb`: `(nfrz_orb_idx, uniq_orb_idx)` -/
def initOrb (nmo ncore : Nat) (ncas : List Nat) (frozen : Option (List Nat)) : Option (Mask × Mask) := do
  let idx ← nfrzOrbIdx nmo ncore ncas frozen
  return (idx, idx)

/-- laspscf.py:16-23 `_init_orb` -/
def initOrbP (nmo ncore : Nat) (ncas : List Nat) (frozen : Option (List Nat)) : Option (Mask × Mask) := do
  let nfrz ← nfrzOrbIdx nmo ncore ncas frozen
  let nocc := ncore + ncas.sum
  let idx := setRect nmo false ncore nocc 0 ncore nfrz
  let idx := setRect nmo false nocc nmo ncore nocc idx
  return (nfrz, idx)

/-- lasscf_sync_o0.py:530-534, laspscf.py:28-32: forbids rotations between irreps; `^` is the exclusive or of irrep numbers. -/
def symmForbid (orbsym : Nat → Nat) (m : Mask × Mask) : Mask × Mask :=
  let forbid : Mask := fun p q => decide (orbsym p ^^^ orbsym q ≠ 0)
  (fun p q => if forbid p q then false else m.1 p q, fun p q => if forbid p q then false else m.2 p q)

/-- lasscf_sync_o0.py:419-424 `get_gx_idx` -/
def gxIdx (m : Mask × Mask) : Mask := fun p q => m.1 p q && !m.2 p q

/-- A `CSFTransformer`. -/
structure Trans (K : Type) where
  ncsf : Nat
  ndeta : Nat
  ndetb : Nat
  det2csf : List K → List K
  csf2det : List K → List K

/-- The generators object: `uniq_orb_idx`, `ci_transformers`, `frozen_ci` (lasscf_sync_o0.py:428-431: `None` means `[]`). -/
structure Gen (K : Type) where
  nmo : Nat
  uniq : Mask
  trans : List (List (Trans K))
  frozenCi : List Nat

variable {K : Type}

/-- Positions of the true elements of a mask, in the row-major order of boolean indexing and `np.argwhere`. -/
def positions (n : Nat) (m : Mask) : List (Nat × Nat) :=
  (List.range n).flatMap fun p => ((List.range n).filter fun q => m p q).map fun q => (p, q)

/-- lasscf_sync_o0.py:496-498 `nvar_orb` -/
def Gen.nvarOrb (u : Gen K) : Nat := (positions u.nmo u.uniq).length

/-- lasscf_sync_o0.py:500-504 `ncsf_sub`: the rows of the fragments that are not frozen. -/
def Gen.ncsfSub (u : Gen K) : List (List Nat) :=
  ((u.trans.zipIdx.filter fun x => decide (x.2 ∉ u.frozenCi)).map (·.1)).map fun l => l.map (·.ncsf)

/-- lasscf_sync_o0.py:506-508 `nvar_tot` -/
def Gen.nvarTot (u : Gen K) : Nat := u.nvarOrb + (u.ncsfSub.map List.sum).sum

/-- lasscf_sync_o0.py:444-448: the loops of `pack` over fragments (from number `ix` on) and states; `zip` stops at the shorter list. -/
def packCi (frozen : List Nat) : Nat → List (List (Trans K)) → List (List (List K)) → List K
  | ix, tf :: ts, cf :: cs =>
    (if ix ∈ frozen then [] else (tf.zip cf).flatMap fun x => x.1.det2csf x.2) ++ packCi frozen (ix + 1) ts cs
  | _, _, _ => []

/-- lasscf_sync_o0.py:442-450 `pack`; `none` is the failed assertion. -/
def Gen.pack (u : Gen K) (kappa : Nat → Nat → K) (ci : List (List (List K))) : Option (List K) :=
  let x := (positions u.nmo u.uniq).map (fun p => kappa p.1 p.2) ++ packCi u.frozenCi 0 u.trans ci
  if x.length = u.nvarTot then some x else none

/-- `kappa = zeros; kappa[mask] = y` (`y` has one element per position). -/
def scatter [Zero K] : List (Nat × Nat) → List K → Nat → Nat → K
  | p :: ps, y :: ys, a, b => if p = (a, b) then y else scatter ps ys a b
  | _, _, _, _ => 0

/-- lasscf_sync_o0.py:460-469: one fragment of `unpack`; also returns what is left of `y`. -/
def unpackFrag [Zero K] (frz : Bool) : List (Trans K) → List K → List (List K) × List K
  | [], y => ([], y)
  | t :: ts, y =>
    if frz then
      let r := unpackFrag frz ts y
      (List.replicate (t.ndeta * t.ndetb) 0 :: r.1, r.2)
    else
      let r := unpackFrag frz ts (y.drop t.ncsf)
      (t.csf2det (y.take t.ncsf) :: r.1, r.2)

/-- lasscf_sync_o0.py:457-470: the loop of `unpack` over the fragments, from number `ix` on. -/
def unpackCi [Zero K] (frozen : List Nat) : Nat → List (List (Trans K)) → List K → List (List (List K))
  | _, [], _ => []
  | ix, tf :: ts, y =>
    let r := unpackFrag (decide (ix ∈ frozen)) tf y
    r.1 :: unpackCi frozen (ix + 1) ts r.2

/-- lasscf_sync_o0.py:452-472 `unpack` -/
def Gen.unpack [Zero K] [Sub K] (u : Gen K) (x : List K) : (Nat → Nat → K) × List (List (List K)) :=
  let k := scatter (positions u.nmo u.uniq) (x.take u.nvarOrb)
  (fun p q => k p q - k q p, unpackCi u.frozenCi 0 u.trans (x.drop u.nvarOrb))

/-- What `addr2idstr` prints: an orbital pair, or fragment, state and number of a configuration state function. -/
inductive Id
  | orb (p q : Nat)
  | ci (i j a : Nat)
deriving DecidableEq

/-- lasscf_sync_o0.py:486-492: the loop over the states of fragment `i`, from state `j` on. `none`: no state is found, `idstr` is
never assigned. -/
def findState (i : Nat) : Nat → List (Trans K) → Nat → Option Id
  | _, [], _ => none
  | j, t :: ts, addr => if addr ≥ t.ncsf then findState i (j + 1) ts (addr - t.ncsf) else some (.ci i j addr)

/-- lasscf_sync_o0.py:481-493: the loop over the fragments, from number `i` on. `ncsf_frag[i]` has one element per fragment that is
not frozen but is read at the number of the fragment; `none` also stands for the IndexError. -/
def findFrag (frozen : List Nat) (ncsfFrag : List Nat) : Nat → List (List (Trans K)) → Nat → Option Id
  | _, [], _ => none
  | i, tf :: ts, addr =>
    if i ∈ frozen then findFrag frozen ncsfFrag (i + 1) ts addr
    else match ncsfFrag[i]? with
      | none => none
      | some n => if addr ≥ n then findFrag frozen ncsfFrag (i + 1) ts (addr - n) else findState i 0 tf addr

/-- lasscf_sync_o0.py:474-494 `addr2idstr` -/
def Gen.addr2id (u : Gen K) (addr : Nat) : Option Id :=
  if addr < u.nvarOrb then ((positions u.nmo u.uniq)[addr]?).map fun p => .orb p.1 p.2
  else findFrag u.frozenCi (u.ncsfSub.map List.sum) 0 u.trans (addr - u.nvarOrb)

end Verif.Ugg
