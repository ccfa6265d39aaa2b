import Verif.Model.SlaterCondon
import Verif.Spec.Moves
/-!
# Model of `LSTDM.make_exc_tables` (/repo/my_pyscf/lassi/op_o1/stdm.py:220-397)

One interaction (row of `scai`) at a time; `Inter` (Spec/Moves.lean) is used as the type of table rows.
-/
namespace Verif.Exc
open Verif.Spec

/-- stdm.py:263 `hopping_index = nelec_rfs[scai[:,0]] - nelec_rfs[scai[:,1]]`. -/
def hopping (bra ket : List (Int × Int)) : List (Int × Int) :=
  (bra.zip ket).map (fun p => (p.1.1 - p.2.1, p.1.2 - p.2.2))

/-- stdm.py:270 `nsop = np.abs (hopping_index).sum (1)`. -/
def nsop (h : List (Int × Int)) : Nat × Nat :=
  ((h.map (fun p => p.1.natAbs)).sum, (h.map (fun p => p.2.natAbs)).sum)

/-- stdm.py:271 `nop`. -/
def nop (h : List (Int × Int)) : Nat := (nsop h).1 + (nsop h).2

/-- stdm.py:272 `ispin`. -/
def ispin (h : List (Int × Int)) : Nat := (nsop h).2 / 2

/-- stdm.py:279 `charge_index`. -/
def charge (h : List (Int × Int)) : List Int := h.map (fun p => p.1 + p.2)

/-- stdm.py:280 `spin_index`. -/
def spin (h : List (Int × Int)) : List Int := h.map (fun p => p.1 - p.2)

/-- stdm.py:283-284 `np.count_nonzero`. -/
def nonzero (l : List Int) : Nat := (l.filter (fun x => decide (x ≠ 0))).length

/-- stdm.py:286 the sort key. -/
def key (h : List (Int × Int)) (f : Nat) : Int := 3 * (h.getD f (0, 0)).1 + (h.getD f (0, 0)).2

/-- stdm.py:286 `np.argsort (..., kind='stable')`. -/
def findf (h : List (Int × Int)) : List Nat :=
  (List.range h.length).mergeSort (fun i j => decide (key h i ≤ key h j))

/-- `findf[idx][:,k]`. -/
def fst (h : List (Int × Int)) (k : Nat) : Nat := (findf h).getD k 0

/-- `findf[idx][:,-1-k]`. -/
def lst (h : List (Int × Int)) (k : Nat) : Nat := (findf h).getD (h.length - 1 - k) 0

/-- `np.amin (l) == -2` / `np.amax (l) == 2`; NumPy raises for zero fragments, here it is False. -/
def aminIs (l : List Int) (m : Int) : Bool := l.min? == some m
@[inherit_doc aminIs]
def amaxIs (l : List Int) (m : Int) : Bool := l.max? == some m

/-- Rows of table `null`, stdm.py:307-308. -/
def rowNull (h : List (Int × Int)) : List Inter := if nop h == 0 then [.null] else []

/-- Rows of table `1c`, stdm.py:324-327. -/
def row1c (h : List (Int × Int)) : List Inter :=
  if decide (h.length > 1) && nop h == 2 then [.c1 (lst h 0) (fst h 0) (ispin h)] else []

/-- `split`, stdm.py:343-347. -/
def rowSplit (h : List (Int × Int)) : List Inter :=
  if decide (h.length > 2) && (nop h == 4 && nonzero (charge h) == 3 && aminIs (charge h) (-2)) then
    [.c2 (lst h 0) (fst h 0) (lst h 1) (fst h 0) (ispin h)] else []

/-- `coalesce`, stdm.py:350-354. -/
def rowCoalesce (h : List (Int × Int)) : List Inter :=
  if decide (h.length > 2) && (nop h == 4 && nonzero (charge h) == 3 && amaxIs (charge h) 2) then
    [.c2 (lst h 0) (fst h 0) (lst h 0) (fst h 1) (ispin h)] else []

/-- `1s1c` with spin argument 0, stdm.py:359-362 and 371-375. -/
def row1s1c (h : List (Int × Int)) : List Inter :=
  if decide (h.length > 2) && (nop h == 4 && nonzero (spin h) == 3 && nonzero (charge h) == 2 &&
      aminIs (spin h) (-2)) then
    [.s1c1 (lst h 0) (fst h 1) (fst h 0) 0] else []

/-- `1s1c_T`, spin argument 1, stdm.py:365-368 and 371-375. -/
def row1s1cT (h : List (Int × Int)) : List Inter :=
  if decide (h.length > 2) && (nop h == 4 && nonzero (spin h) == 3 && nonzero (charge h) == 2 &&
      amaxIs (spin h) 2) then
    [.s1c1 (lst h 1) (fst h 0) (lst h 0) 1] else []

/-- `1s`, stdm.py:378-381. -/
def row1s (h : List (Int × Int)) : List Inter :=
  if decide (h.length > 1) && (nop h == 4 && nonzero (charge h) == 0 && nonzero (spin h) == 2) then
    [.s1 (lst h 0) (fst h 0)] else []

/-- `pair`, stdm.py:384-388. -/
def rowPair (h : List (Int × Int)) : List Inter :=
  if decide (h.length > 1) && (nop h == 4 && nonzero (charge h) == 2 && decide (nonzero (spin h) < 3)) then
    [.c2 (lst h 0) (fst h 0) (lst h 0) (fst h 0) (ispin h)] else []

/-- `scatter`, stdm.py:391-395. -/
def rowScatter (h : List (Int × Int)) : List Inter :=
  if decide (h.length > 3) && (nop h == 4 && nonzero (charge h) == 4) then
    [.c2 (lst h 0) (fst h 0) (lst h 1) (fst h 1) (ispin h)] else []

/-- Rows of a table: `np.vstack ([scai[idx,0], scai[idx,1], ...]).T`. -/
def table (r : List (Int × Int) → List Inter) (nelec : List (List (Int × Int)))
    (scai : List (Nat × Nat)) : List ((Nat × Nat) × Inter) :=
  scai.flatMap (fun p => (r (hopping (nelec.getD p.1 []) (nelec.getD p.2 []))).map (fun x => (p, x)))

/-- stdm.py:252-254 `if self.ltri: scai = scai[scai[:,0] >= scai[:,1]]`. -/
def tril (ltri : Bool) (scai : List (Nat × Nat)) : List (Nat × Nat) :=
  if ltri then scai.filter (fun p => decide (p.1 ≥ p.2)) else scai

/-- The primary tables returned by `make_exc_tables`: `null`, `1c`, `1s`, `1s1c`, `2c`
(stdm.py:306-405). -/
def excTables (nelec : List (List (Int × Int))) (scai : List (Nat × Nat)) :
    List (List ((Nat × Nat) × Inter)) :=
  [ table rowNull nelec scai
  , table row1c nelec scai
  , table row1s nelec scai
  , table row1s1c nelec scai ++ table row1s1cT nelec scai
  , table rowPair nelec scai ++ (table rowSplit nelec scai ++ table rowCoalesce nelec scai) ++
      table rowScatter nelec scai ]

/-- Table `1d`, stdm.py:311-314: every fragment for every `null` row. -/
def table1d (nfrags : Nat) (null : List (Nat × Nat)) : List ((Nat × Nat) × Nat) :=
  null.flatMap (fun p => (List.range nfrags).map (fun f => (p, f)))

/-- `np.tril_indices (n, k=-1)` stacked. -/
def trilIndices (n : Nat) : List (Nat × Nat) :=
  (List.range n).flatMap (fun i => (List.range i).map (fun j => (i, j)))

/-- Table `2d`, stdm.py:317-321. -/
def table2d (nfrags : Nat) (null : List (Nat × Nat)) : List ((Nat × Nat) × (Nat × Nat)) :=
  if nfrags > 1 then null.flatMap (fun p => (trilIndices nfrags).map (fun f => (p, f))) else []

/-- Table `1c1d`, stdm.py:330-337: columns `bra, ket, i, j, k, s`. -/
def table1c1d (nfrags : Nat) (c1 : List ((Nat × Nat) × (Nat × Nat × Nat))) :
    List ((Nat × Nat) × (Nat × Nat × Nat × Nat)) :=
  if nfrags > 2 then
    ((c1.flatMap (fun r => (List.range nfrags).map (fun k => (r, k)))).filter
      (fun r => !(r.1.2.1 == r.2 || r.1.2.2.1 == r.2))).map
      (fun r => (r.1.1, (r.1.2.1, r.1.2.2.1, r.2, r.1.2.2.2)))
  else []

end Verif.Exc
