import Verif.Model.SpinTables
/-!
# Model of the functions on lists of rootspaces

/repo/my_pyscf/lassi/spaces.py:260-267, 342-372, 389-392, 555-767. Logging is omitted, and so are the CI vectors.
A list of rootspaces stands for the table of charges, spins, multiplicities and weights that
`get_space_info` reads from and `state_average` writes to a calculation object.
-/
namespace Verif.Spaces
open Space

/-- spaces.py:260-267 `gen_spin_shuffles`; `none` if the `assert` in `make_spin_shuffle_table` fails. -/
def genSpinShuffles (sp : Space) : Option (List Space) :=
  (makeSpinShuffleTable sp.smults sp.spins).map fun tbl => tbl.map fun spins =>
    { sp with spins := spins, weight := 0 }

/-- spaces.py:753-757: one rootspace `x` met by the loop; the state is `(seen, all_spaces)`. Also the filter
`not ((state in seen) or seen.add (state))` of line 624. -/
def addUnseen (h : List Space.HashItem → Int) (st : List Space × List Space) (x : Space) : List Space × List Space :=
  if pyIn h st.1 x then st else (st.1 ++ [x], st.2 ++ [x])

/-- spaces.py:747-757: the loops of `_spin_shuffle`. -/
def spinShuffleLoop (h : List Space.HashItem → Int) : List Space → List Space × List Space →
    Option (List Space × List Space)
  | [], st => some st
  | ref :: refs, st => (genSpinShuffles ref).bind fun new => spinShuffleLoop h refs (new.foldl (addUnseen h) st)

/-- spaces.py:739-767 `_spin_shuffle`. -/
def spinShuffle (h : List Space.HashItem → Int) (refs : List Space) (equalWeights : Bool) : Option (List Space) :=
  (spinShuffleLoop h refs (pySet h refs, refs)).map fun st =>
    if equalWeights then st.2.map fun sp => { sp with weight := 1 / (st.2.length : Rat) } else st.2

/-- spaces.py:621-622: the rootspaces generated from all references. -/
def newSingles (f : NCsf) (mask : Nat → Nat → Bool) : List Space → Except Err (List Space)
  | [] => .ok []
  | ref :: refs => do
    let l ← ref.getSingles f mask
    let ls ← newSingles f mask refs
    pure (l ++ ls)

/-- spaces.py:389-392 `is_spin_shuffle_of`, for rootspaces of the same number of fragments. -/
def isSpinShuffleOf (a b : Space) : Bool :=
  if (List.range a.nfrag).any fun i => decide (a.nelec i ≠ b.nelec i) then false
  else if (List.range a.nfrag).any fun i => decide (el a.smults i ≠ el b.smults i) then false
  else decide (a.spins.sum = b.spins.sum)

/-- spaces.py:646-651: the inner loop, which appends to the first manifold whose first member is related. `none`
when no manifold fits. -/
def insertManifold (sp : Space) : List (List Space) → Option (List (List Space))
  | [] => none
  | [] :: _ => none
  | (m0 :: ms) :: rest =>
    if isSpinShuffleOf sp m0 then some ((m0 :: ms ++ [sp]) :: rest)
    else (insertManifold sp rest).map ((m0 :: ms) :: ·)

/-- spaces.py:643-654: one iteration. -/
def manifoldStep (ms : List (List Space)) (sp : Space) : List (List Space) :=
  match insertManifold sp ms with
  | some ms' => ms'
  | none => ms ++ [[sp]]

/-- spaces.py:643-654: the grouping loop. -/
def manifolds (spaces : List Space) : List (List Space) := spaces.foldl manifoldStep []

/-- `np.where (...)[0][0]` over the fragments. -/
def firstWhere (n : Nat) (p : Nat → Bool) : Except Err Nat :=
  match (List.range n).filter p with
  | i :: _ => .ok i
  | [] => .error .index

/-- `np.sign` -/
def npSign (x : Int) : Int := if x > 0 then 1 else if x < 0 then -1 else 0

/-- spaces.py:660-685: the projections a selected rootspace should have. -/
def targetSpins (space0 m0 : Space) (ifrag afrag : Nat) : List Int :=
  let spins0 := space0.spins
  let ts := spins0.map npSign
  let ts :=
    if el spins0 ifrag = 0 ∧ el spins0 afrag = 0 then (ts.set ifrag (-1)).set afrag 1
    else if el spins0 ifrag = 0 then ts.set ifrag (-el ts afrag)
    else if el spins0 afrag = 0 then ts.set afrag (-el ts ifrag)
    else ts
  let s1 := spins0.map (|·|)
  let s1 := bump s1 ifrag (el m0.smults ifrag - el space0.smults ifrag)
  let s1 := bump s1 afrag (el m0.smults afrag - el space0.smults afrag)
  List.zipWith (· * ·) ts s1

/-- spaces.py:688-695: fragments in ascending order of the sort key, stable. -/
def manifoldOrder (smults1 : List Int) (ifrag afrag : Nat) : List Nat :=
  let sorter := smults1
  let offset := amax sorter
  let sorter := bump sorter ifrag offset
  let sorter := bump sorter afrag offset
  let sorter := if el sorter ifrag = el sorter afrag then bump sorter afrag 1 else sorter
  (List.range smults1.length).mergeSort fun p q => decide (el sorter p ≤ el sorter q)

/-- spaces.py:696-698: `np.cumprod (dimsize[::-1]+1)[::-1]` for the list of `dimsize`. -/
def cumprodRev : List Int → List Int
  | [] => []
  | d :: ds =>
    match cumprodRev ds with
    | [] => [d + 1]
    | e :: es => (d + 1) * e :: e :: es

/-- spaces.py:686-698: the scores of the members of a manifold, given the target projections. -/
def manifoldScores (manifold : List Space) (smults1 target : List Int) (ifrag afrag : Nat) : List Int :=
  let idx := manifoldOrder smults1 ifrag afrag
  let dspins := manifold.map fun sp => idx.map fun k => |el sp.spins k - el target k|
  let dimsize := (List.range idx.length).map fun c => (dspins.length : Int) * amax (dspins.map fun row => el row c)
  let dims := cumprodRev dimsize
  dspins.map fun row => (List.zipWith (· * ·) dims row).sum

/-- spaces.py:660-709 `select_single_excitation_from_spin_manifold`. `none` of the inner option is the
`RuntimeError` raised when the smallest score is not unique. -/
def selectFromManifold (space0 : Space) (manifold : List Space) : Except Err (Option Space) := do
  match manifold with
  | [] => throw .index
  | m0 :: ms => do
    let ifrag ← firstWhere space0.nfrag fun i => decide (m0.nelec i - space0.nelec i = -1)
    let afrag ← firstWhere space0.nfrag fun i => decide (m0.nelec i - space0.nelec i = 1)
    let target := targetSpins space0 m0 ifrag afrag
    assert' ((List.range target.length).all fun i => decide (|el target i| < el m0.smults i))
    let scores := manifoldScores (m0 :: ms) m0.smults target ifrag afrag
    let best := scores.foldl min (scores.headD 0)
    match ((m0 :: ms).zip scores).filter fun p => decide (p.2 = best) with
    | [p] => pure (some p.1)
    | _ => pure none

/-- spaces.py:656-657: one representative per manifold. -/
def selectAll (space0 : Space) : List (List Space) → Except Err (Option (List Space))
  | [] => .ok (some [])
  | m :: ms => do
    let s ← selectFromManifold space0 m
    match s with
    | none => pure none
    | some s => do
      let r ← selectAll space0 ms
      pure (r.map (s :: ·))

/-- spaces.py:639-658 `filter_single_excitation_spin_shuffles`. -/
def filterShuffles (spaces : List Space) (nrootsRef : Nat) : Except Err (Option (List Space)) :=
  match spaces.take nrootsRef with
  | [] => .error .index
  | space0 :: refs => do
    let sel ← selectAll space0 (manifolds (spaces.drop nrootsRef))
    pure (sel.map ((space0 :: refs) ++ ·))

/-- spaces.py:605-637 `all_single_excitations`, from the list of reference rootspaces (with weights) to the list that
is passed to `state_average`. -/
def allSingleExcitations (f : NCsf) (h : List Space.HashItem → Int) (mask : Nat → Nat → Bool) (filt : Bool)
    (refs : List Space) : Except Err (Option (List Space)) := do
  let new ← newSingles f mask refs
  let all := (new.foldl (addUnseen h) (pySet h refs, refs)).2
  if filt then filterShuffles all refs.length else pure (some all)

/-! ### Products of excitations -/

/-- spaces.py:555-563 `orthogonal_excitations`. -/
def orthogonalExcitations (exc1 exc2 ref : Space) (ignore_m : Bool) : Bool :=
  if exc1.nfrag ≠ ref.nfrag then false
  else if exc2.nfrag ≠ ref.nfrag then false
  else
    let idx1 := exc1.excitedFragment ref ignore_m
    if !(List.range exc1.nfrag).any idx1 then false
    else
      let idx2 := exc2.excitedFragment ref ignore_m
      if !(List.range exc2.nfrag).any idx2 then false
      else if (List.range exc1.nfrag).any (fun i => idx1 i && idx2 i) then false
      else true

/-- `x[idx] = y[idx]` for a boolean mask. -/
def maskedCopy (n : Nat) (idx : Nat → Bool) (x y : List Int) : List Int :=
  (List.range n).map fun i => if idx i then el y i else el x i

/-- spaces.py:576-585: the adjustment of the projections, `delta` being the excess. -/
def adjustSpins (spins smults : List Int) (delta : Int) : Except Err (List Int) :=
  if delta = 0 then .ok spins
  else do
    let sgn : Int := if delta > 0 then -1 else 1
    let d := |delta|
    let dspins := (List.range spins.length).map fun i => (el smults i - 1) - sgn * el spins i
    assert' (dspins.all fun x => decide (x ≥ 0))
    let i ← firstWhere dspins.length fun i => decide (el (cumsum dspins) i ≥ d)
    let low := dspins.take i
    let dspins := low ++ (d - low.sum) :: List.replicate (dspins.length - i - 1) 0
    pure ((List.range spins.length).map fun i => el spins i + sgn * el dspins i)

/-- Comparison of tuples of integers (`sorted` of a list of tuples). -/
def tupLe : List Nat → List Nat → Bool
  | [], _ => true
  | _ :: _, [] => false
  | a :: as, b :: bs => if a < b then true else if b < a then false else tupLe as bs

/-- spaces.py:565-603 `combine_orthogonal_excitations` without the CI vectors (and the identity assertions about them,
which apply when `flexible_m` is false). -/
def combineOrthogonal (exc1 exc2 ref : Space) (flexible_m : Bool) : Except Err Space := do
  let n := ref.nfrag
  let idx2 := exc2.excitedFragment ref flexible_m
  let spins := maskedCopy n idx2 exc1.spins exc2.spins
  let smults := maskedCopy n idx2 exc1.smults exc2.smults
  let charges := maskedCopy n idx2 exc1.charges exc2.charges
  let spins ← if flexible_m then do
      let spins ← adjustSpins spins smults (spins.sum - ref.spins.sum)
      assert' (decide (spins.sum = ref.spins.sum))
      assert' ((List.range n).all fun i => decide (el spins i < el smults i))
      assert' ((List.range n).all fun i => decide (-el spins i < el smults i))
      pure spins
    else pure spins
  let entmap := (exc1.entmap ++ exc2.entmap).mergeSort tupLe
  assert' (decide (entmap.Nodup))
  pure ⟨ref.nlas, ref.nelelas, spins, smults, charges, 0, entmap⟩

end Verif.Spaces
