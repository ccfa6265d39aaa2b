import Verif.Model.Addr
/-!
# Model of the block decompositions (/repo/my_pyscf/lassi/op_o1/utilities.py:167-228)
-/
namespace Verif.Blocks
open Verif.Addr

/-- `np.where (l)[0]` for a one-dimensional array of truth values, with positions counted from `k`. -/
def whereFrom : List Bool → Nat → List Nat
  | [], _ => []
  | b :: bs, k => (if b then [k] else []) ++ whereFrom bs (k + 1)

/-- `np.where (l)[0]` -/
def npWhere (l : List Bool) : List Nat := whereFrom l 0

/-- `b & (~x)` for a bool `b` and an int64 `x`, as a truth value: `np.append (mask[1:], [0])` is an integer
array, so that `~x` is `-1-x` and the `&` looks at its last bit only. -/
def andNotInt (b : Bool) (x : Int) : Bool := b && ((-1 - x) % 2 != 0)

/-- `np.cumsum` on signed integers. -/
def cumsumZ (l : List Int) : List Int := (List.range l.length).map (fun i => (l.take (i + 1)).sum)

/-- utilities.py:167-176 `get_contig_blks`, on the raveled mask. -/
def getContigBlks (mask : List Bool) : List Int × List Nat × List Int :=
  let prevm := false :: mask.dropLast
  let destblkstart := npWhere (List.zipWith (fun b p => b && !p) mask prevm)
  let nextm : List Int := (mask.drop 1).map (fun b => if b then 1 else 0) ++ [0]
  let destblkend := npWhere (List.zipWith andNotInt mask nextm)
  let blklen := List.zipWith (fun (e s : Nat) => (e : Int) - s + 1) destblkend destblkstart
  let srcblkstart := cumsumZ (0 :: blklen.dropLast)
  (srcblkstart, destblkstart, blklen)

/-- utilities.py:178-187 `split_contig_array`. `none` is the `ZeroDivisionError` of `divmod` (zero length or
zero threads), or the failed assertion. -/
def splitContigArray (arrlen nthreads : Nat) : Option (List Nat × List Nat) :=
  let nthreads := min arrlen nthreads
  if nthreads = 0 then none else
  let q := arrlen / nthreads
  let rem := arrlen % nthreads
  let blklen := List.replicate nthreads q
  let blklen := (blklen.take rem).map (· + 1) ++ blklen.drop rem
  let blkstart := npCumsum blklen
  if blkstart.getLast? ≠ some arrlen then none else
  some (List.zipWith (· - ·) blkstart blklen, blklen)

/-- utilities.py:209-228 `spin_shuffle_idx`. The loop extends `idxa` and `idxb`. -/
def spinShuffleIdx (norbF : List Nat) : List Nat :=
  let off := npCumsum norbF
  let r := (off.zip norbF).foldl (fun (acc : List Nat × List Nat) (ij : Nat × Nat) =>
    let i := ij.1
    let j := ij.2
    (acc.1 ++ (List.range (2 * i - j - 2 * (i - j))).map (2 * (i - j) + ·),
     acc.2 ++ (List.range (2 * i - (2 * i - j))).map (2 * i - j + ·))) ([], [])
  r.1 ++ r.2

end Verif.Blocks
