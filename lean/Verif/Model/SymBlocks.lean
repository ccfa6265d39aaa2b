import Mathlib.Algebra.Group.Defs
import Mathlib.Data.List.Basic
/-!
# Model of the assembly of the LASSI eigenvector matrix from symmetry blocks

/repo/my_pyscf/lassi/lassi.py:199-251 (`iterate_subspace_blocks`: index arrays) and 303-352 (`lassi`: assembly)
-/
namespace Verif.SymBlocks

variable {σ K E : Type}

/-- lassi.py:203 `prod_off = np.cumsum (nprods_r) - nprods_r`. -/
def prodOff (nprods : List Nat) (i : Nat) : Nat := (nprods.take i).sum

/-- lassi.py:214-215, 227: `idx_prod` of the block `sym`: true in the slices of the root spaces whose symmetry is `sym`;
304: `np.where (idx_prod)[0]`. -/
def blockRows [DecidableEq σ] (spacesym : List σ) (nprods : List Nat) (sym : σ) : List Nat :=
  (List.range nprods.sum).filter (fun p => (List.range spacesym.length).any (fun i =>
    decide (spacesym[i]? = some sym) && decide (prodOff nprods i ≤ p) && decide (p < prodOff nprods i + nprods.getD i 0)))

/-- Result of one block: number of columns, matrix entries, energies. -/
structure Sol (K E : Type) where
  ncol : Nat
  c : Nat → Nat → K
  e : List E

/-- One entry of the lists built in the loop over blocks. -/
structure Blk (σ K E : Type) where
  sym : σ
  rows : List Nat
  sol : Sol K E

/-- lassi.py:303-328: the loop over `subset`. A block with one state gets a 1×1 unit matrix and the energy of its LAS state
(less `e0`), any other what the diagonalizer returns. -/
def blocks [DecidableEq σ] [One K] [AddCommGroup E] (spacesym : List σ) (nprods : List Nat) (subset : List σ)
    (eState : σ → E) (e0 : E) (solver : σ → Sol K E) : List (Blk σ K E) :=
  subset.map (fun sym =>
    let rows := blockRows spacesym nprods sym
    if rows.length = 1 then ⟨sym, rows, ⟨1, fun _ _ => 1, [eState sym - e0]⟩⟩ else ⟨sym, rows, solver sym⟩)

/-- lassi.py:333 `linalg.block_diag (*si)`: entry in row `r`, column `c`. -/
def blockDiag [Zero K] : List (Blk σ K E) → Nat → Nat → K
  | [], _, _ => 0
  | b :: bs, r, c =>
    if r < b.rows.length then (if c < b.sol.ncol then b.sol.c r c else 0)
    else (if c < b.sol.ncol then 0 else blockDiag bs (r - b.rows.length) (c - b.sol.ncol))

/-- `np.argsort (l)`: numpy's default sort is not stable, so any sorting permutation is allowed. -/
structure IsArgsort {α : Type} [LE α] (l : List α) (idx : List Nat) : Prop where
  perm : idx.Perm (List.range l.length)
  sorted : (idx.map (fun i => l[i]?)).Pairwise (fun a b => ∀ x ∈ a, ∀ y ∈ b, x ≤ y)

/-- lassi.py:332-333, 348: `si = block_diag (…)[idx_allprods,:][:,idx]`, entry `(p, q)`. -/
def finalSi [Zero K] (bs : List (Blk σ K E)) (rowIdx colIdx : List Nat) (p q : Nat) : K :=
  blockDiag bs (rowIdx.getD p 0) (colIdx.getD q 0)

/-- lassi.py:338: `e_roots = np.asarray (e_roots)[idx] + e0`. -/
def finalE [AddCommGroup E] (bs : List (Blk σ K E)) (e0 : E) (colIdx : List Nat) : List E :=
  colIdx.filterMap (fun i => ((bs.flatMap (fun b => b.sol.e))[i]?).map (· + e0))

/-- lassi.py:337: `rootsym = np.asarray (rootsym)[idx]`; 317, 328: one entry per column of each block. -/
def finalSym (bs : List (Blk σ K E)) (colIdx : List Nat) : List σ :=
  colIdx.filterMap (fun i => (bs.flatMap (fun b => List.replicate b.sol.ncol b.sym))[i]?)

end Verif.SymBlocks
