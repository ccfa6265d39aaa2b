/-!
# Model of the Slater-Condon screening library

/repo/lib/lassi/slatercondon.c and its callers in
/repo/my_pyscf/lassi/op_o1/utilities.py:121-165.
C `int`/`long` are unbounded `Int` here (no overflow is modelled).  An occupation row
`nelec_fs[ifrag*2 + s]` is a list of pairs `(na, nb)`, one per fragment.
-/
namespace Verif.SC

/-- Accumulators `(sa, sb, d)` of slatercondon.c:22-32. -/
structure Acc where
  sa : Int
  sb : Int
  d : Nat
deriving DecidableEq, Repr

/-- Loop body, slatercondon.c:26-31. -/
def accStep (a : Acc) (p : (Int × Int) × (Int × Int)) : Acc :=
  let dna := p.1.1 - p.2.1
  let dnb := p.1.2 - p.2.2
  ⟨a.sa + dna, a.sb + dnb, a.d + dna.natAbs + dnb.natAbs⟩

/-- The loop of slatercondon.c:25-32 over all fragments. -/
def acc (bra ket : List (Int × Int)) : Acc := (bra.zip ket).foldl accStep ⟨0, 0, 0⟩

/-- /repo/lib/lassi/slatercondon.c:19-35 `is_interaction_coupled`. -/
def isCoupled (bra ket : List (Int × Int)) : Bool :=
  let a := acc bra ket
  a.sa == 0 && a.sb == 0 && decide (a.d ≤ 4)

/-- slatercondon.c:53-59: the initial spin-ladder budget. -/
def sladder0 (d : Nat) : Int := if d > 2 then 0 else if d > 0 then 1 else 2

/-- Loop body, slatercondon.c:62-70; `none` = failed `assert` on line 67. -/
def ladderStep (coupled : Bool) (st : Option Int)
    (p : ((Int × Int) × (Int × Int)) × (Int × Int)) : Option Int :=
  st.bind fun sladder =>
    let dn := (p.1.1.1 - p.1.2.1).natAbs + (p.1.1.2 - p.1.2.2).natAbs
    let ds := (p.2.1 - p.2.2).natAbs
    if ds > dn then
      if coupled && (ds - dn) % 2 != 0 then none
      else some (sladder - (((ds - dn) / 2 : Nat) : Int))
    else some sladder

/-- /repo/lib/lassi/slatercondon.c:37-73 `is_interaction_coupled_s`; `none` = a failed `assert`
(lines 54 and 67). -/
def isCoupledS (bra ket : List (Int × Int)) (sbra sket : List Int) : Option Bool :=
  let a := acc bra ket
  let coupled := a.sa == 0 && a.sb == 0 && decide (a.d ≤ 4)
  if coupled && a.d == 3 then none else
    (((bra.zip ket).zip (sbra.zip sket)).foldl (ladderStep coupled) (some (sladder0 a.d))).map
      (fun sladder => coupled && decide (sladder ≥ 0))

/-! ## Threaded counting and listing -/

/-- Iteration `iel` of the collapsed loop, slatercondon.c:99-100 / 189-190. -/
def pairOf (nket iel : Nat) : Nat × Nat := (iel / nket, iel % nket)

/-- One thread of `SCcntinter`, slatercondon.c:94-106: `my_n` over the iterations it was given. -/
def threadCount (cpl : Nat × Nat → Bool) (nket : Nat) (its : List Nat) : Nat :=
  its.foldl (fun n iel => if cpl (pairOf nket iel) then n + 1 else n) 0

/-- /repo/lib/lassi/slatercondon.c:76-113 (and 115-159) `SCcntinter(spin)`. `threads` lists the
iterations executed by each thread, in the order in which the threads pass the critical section. -/
def cntInter (cpl : Nat × Nat → Bool) (nket : Nat) (threads : List (List Nat)) : Nat :=
  threads.foldl (fun n its => n + threadCount cpl nket its) 0

/-- Store at an address of a fixed-size C buffer; `none` = out of bounds. -/
def store (buf : List Int) (i : Nat) (v : Int) : Option (List Int) :=
  if i < buf.length then some (buf.set i v) else none

/-- One thread of `SClistinter`, slatercondon.c:182-198: private buffer `my_exc` of `2*nexc` longs. -/
def threadList (cpl : Nat × Nat → Bool) (nket nexc : Nat) (its : List Nat) :
    Option (List Int × Nat) :=
  its.foldl (fun st iel => st.bind fun (buf, my) =>
      if cpl (pairOf nket iel) then
        (store buf (my * 2) (pairOf nket iel).1).bind fun buf =>
        (store buf (my * 2 + 1) (pairOf nket iel).2).bind fun buf => some (buf, my + 1)
      else some (buf, my))
    (some (List.replicate (2 * nexc) 0, 0))

/-- slatercondon.c:201-203: copy `cnt` longs of the private buffer to `exc + iexc`. -/
def copyOut (exc : List Int) (iexc : Nat) (mine : List Int) (cnt : Nat) : Option (List Int) :=
  (List.range cnt).foldl (fun st i => st.bind fun e => store e (iexc + i) (mine.getD i 0)) (some exc)

/-- /repo/lib/lassi/slatercondon.c:161-208 (and 210-263) `SClistinter(spin)`: threads in the order of
the critical section; `none` = a write outside a buffer. -/
def listInter (cpl : Nat × Nat → Bool) (nket nexc : Nat) (exc0 : List Int)
    (threads : List (List Nat)) : Option (List Int × Nat) :=
  threads.foldl (fun st its => st.bind fun (exc, iexc) =>
      (threadList cpl nket nexc its).bind fun (mine, my) =>
        (copyOut exc iexc mine (my * 2)).bind fun exc => some (exc, iexc + my * 2))
    (some (exc0, 0))

/-- The predicate handed to the loops by `SCcntinter`/`SClistinter` (slatercondon.c:97-104, 187-194):
rows `ibra` and `iket` of the occupation tables (utilities.py:128 passes the same table twice). -/
def cplCharge (nelec : List (List (Int × Int))) (p : Nat × Nat) : Bool :=
  isCoupled (nelec.getD p.1 []) (nelec.getD p.2 [])

/-- The predicate of `SCcntinterspin`/`SClistinterspin` (slatercondon.c:141-150, 243-252). A failed
`assert` aborts the process in C; here it counts as "not coupled" (C06 shows it does not happen). -/
def cplSpin (nelec : List (List (Int × Int))) (smult : List (List Int)) (p : Nat × Nat) : Bool :=
  (isCoupledS (nelec.getD p.1 []) (nelec.getD p.2 []) (smult.getD p.1 []) (smult.getD p.2 [])).getD false

/-- Rows of a flat buffer of shape (n, 2). -/
def rows : List Int → List (Int × Int)
  | a :: b :: t => (a, b) :: rows t
  | _ => []

/-- `np.lexsort ((exc[:,1], exc[:,0]))`: sort by column 0, then by column 1. -/
def lexLE (a b : Int × Int) : Bool := decide (a.1 < b.1) || (a.1 == b.1 && decide (a.2 ≤ b.2))

/-- /repo/my_pyscf/lassi/op_o1/utilities.py:132-144 (and 153-165): count with one schedule, list into
a buffer of that size (filled with -1) with another schedule, then sort. The memory check of lines
133-140 is left out. -/
def scallowed (cpl : Nat × Nat → Bool) (nroots : Nat) (sched1 sched2 : List (List Nat)) :
    Option (List (Int × Int)) :=
  let nexc := cntInter cpl nroots sched1
  (listInter cpl nroots nexc (List.replicate (2 * nexc) (-1)) sched2).map
    (fun r => (rows r.1).mergeSort lexLE)

/-! ## Fingerprints -/

/-- /repo/lib/lassi/slatercondon.c:267-277 `fnv_1a` (two's complement `long` words as `UInt64`). -/
def fnv1a (arr : List UInt64) : UInt64 :=
  arr.foldl (fun h x => (h ^^^ x) * 1099511628211) 14695981039346656037

/-- slatercondon.c:284-288: compare-exchange of neighbours `j`, `j+1`. -/
def cmpSwap (a : List Int) (j : Nat) : List Int :=
  match a[j]?, a[j+1]? with
  | some x, some y => if x > y then (a.set j y).set (j+1) x else a
  | _, _ => a

/-- /repo/lib/lassi/slatercondon.c:279-291 `bubblesort`. For `len_a = 0` the C bound `len_a-1` wraps
around; the callers pass at least one fragment, and the model is used for nonempty arrays only. -/
def bubblesort (a : List Int) : List Int :=
  (List.range (a.length - 1)).foldl (fun a i =>
    (List.range (a.length - i - 1)).foldl cmpSwap a) a

/-- slatercondon.c:345-352: the `(trans, unsorted)` loop over the string pairs. -/
def transFlag (bs ks : List Int) : Bool :=
  ((bs.zip ks).foldl (fun (st : Bool × Bool) (p : Int × Int) =>
    (if st.2 && decide (p.1 < p.2) then true else st.1,
     if p.1 != p.2 then false else st.2)) (false, true)).1

/-- /repo/lib/lassi/slatercondon.c:335-361: the two rows that are hashed (`fprint`, `fprintLT`) for one
interaction; `str m f` is `urootstr[m*ncols + f]`. -/
def fprintRows (str : Nat → Int → Int) (bra ket : Nat) (frags : List Int) : List Int × List Int :=
  let fs := bubblesort frags
  let bs := fs.map (str bra)
  let ks := fs.map (str ket)
  (fs ++ bs ++ ks, if transFlag bs ks then fs ++ ks ++ bs else fs ++ bs ++ ks)

end Verif.SC
