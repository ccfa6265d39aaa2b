import Verif.Model.Spaces
/-!
# Model of the spin-projection and multiplicity tables

/repo/my_pyscf/lassi/spaces.py:213-258, 456-465, 843-895. A two-dimensional integer array is the list of its rows.
-/
namespace Verif.Spaces

/-- Lexicographic order on rows of equal length. -/
def rowLe : List Int → List Int → Bool
  | [], _ => true
  | _ :: _, [] => false
  | a :: as, b :: bs => if a < b then true else if b < a then false else rowLe as bs

/-- `np.unique (rows, axis=0)`: the distinct rows in lexicographic order. -/
def npUnique (rows : List (List Int)) : List (List Int) := rows.dedup.mergeSort rowLe

/-- `np.cumsum` -/
def cumsum (l : List Int) : List Int := (List.range l.length).map fun i => (l.take (i + 1)).sum

/-- spaces.py:218-224: one iteration of the loop of `make_spin_shuffle_table`. -/
def spinTableStep (smults : List Int) (table : List (List Int)) : List (List Int) :=
  let t := table.flatMap fun row => (List.range smults.length).map fun i => bump row i (-2)
  (npUnique t).filter fun row => (List.range smults.length).all fun i => decide (el row i > -el smults i)

/-- `n`-fold iteration (`for i in range (n)` for a body that ignores `i`). -/
def iter {α : Type} (f : α → α) : Nat → α → α
  | 0, x => x
  | n + 1, x => iter f n (f x)

/-- spaces.py:213-225 `make_spin_shuffle_table`; `none` if the `assert` fails. -/
def makeSpinShuffleTable (smults spins : List Int) : Option (List (List Int)) :=
  let s := smults.map (· - 1)
  if (s.sum - spins.sum) % 2 ≠ 0 then none
  else some (iter (spinTableStep smults) ((s.sum - spins.sum) / 2).toNat [s])

/-- spaces.py:240-250: one iteration of the loop of `make_smult_shuffle_table`. A row is kept together with its
cumulative sum (`spins_gencoup`). `none` if the `assert` fails. -/
def smultTableStep (smults : List Int) (smult_lsf : Int) (table : List (List Int × List Int)) :
    Option (List (List Int × List Int)) :=
  let n := smults.length
  let t := (table.map (·.1)).flatMap fun row => ((List.range n).drop 1).map fun i => bump row i (-2)
  let t := (npUnique t).map fun row => (row, cumsum row)
  let t := t.filter fun rg => (List.range n).all (fun i => decide (el rg.2 i ≥ 0)) &&
    (List.range n).all (fun i => decide (el rg.1 i > -el smults i))
  if t.all (fun rg => decide (el rg.2 (n - 1) ≥ smult_lsf - 1)) then some t else none

/-- The iterations. -/
def smultTableLoop (smults : List Int) (smult_lsf : Int) : Nat → List (List Int × List Int) →
    Option (List (List Int × List Int))
  | 0, t => some t
  | k + 1, t => (smultTableStep smults smult_lsf t).bind (smultTableLoop smults smult_lsf k)

/-- spaces.py:252-257: the filters applied after the loop. -/
def smultTableTail (smults : List Int) (table : List (List Int × List Int)) : List (List Int × List Int) :=
  (List.range (smults.length - 1)).foldl (fun t i =>
    t.filter fun rg => decide (el rg.2 (i + 1) ≥ el smults (i + 1) - 1 - el rg.2 i)) table

/-- `np.sort (x)[::-1][0]`, the largest element (of a nonempty list). -/
def amax (l : List Int) : Int := l.foldl max (l.headD 0)

/-- spaces.py:227-258 `make_smult_shuffle_table`; `none` if an `assert` fails. -/
def makeSmultShuffleTable (smults : List Int) (smult_lsf : Int) : Option (List (List Int)) :=
  let s := smults.map (· - 1)
  if (s.sum - (smult_lsf - 1)) % 2 ≠ 0 then none else
  let nflips := ((s.sum - (smult_lsf - 1)) / 2).toNat
  let smult_max := s.sum + 1
  let smult_min := 2 * (amax s + 1) - smult_max
  if smult_lsf < smult_min ∨ smult_lsf > smult_max then some [] else
  match smultTableLoop smults smult_lsf nflips [(s, cumsum s)] with
  | none => none
  | some t =>
    if t.all (fun rg => decide (el rg.2 (smults.length - 1) = smult_lsf - 1)) then
      some ((smultTableTail smults t).map (·.1))
    else none

/-- spaces.py:456-465 `is_orthogonal_by_smult` (one `other`). -/
def isOrthogonalBySmult (self other : List Int) : Bool :=
  let s2_self := self.map (· - 1)
  let max_self := s2_self.sum
  let min_self := 2 * amax s2_self - max_self
  let s2_other := other.map (· - 1)
  let max_other := s2_other.sum
  let min_other := 2 * amax s2_other - max_other
  decide (max_self < min_other) || decide (max_other < min_self)

/-- An optional per-fragment bound of `filter_spaces` (an integer bound is the constant array). -/
abbrev Bound := Option (List Int)

/-- `(bound is None) or np.all (le (x, bound))` -/
def within (cmp : Int → Int → Bool) (b : Bound) (x : List Int) : Bool :=
  match b with
  | none => true
  | some b => (List.range x.length).all fun i => cmp (el x i) (el b i)

/-- spaces.py:878-891: whether `filter_spaces` keeps a rootspace with the given charges and multiplicities.
`anyT`/`allT` are the lists of target multiplicities. -/
def filterKeeps (charges smults : List Int) (maxC minC maxS minS : Bound) (anyT allT : Option (List Int)) : Bool :=
  let idx := within (fun a b => decide (a ≤ b)) maxC charges
  let idx := idx && within (fun a b => decide (a ≥ b)) minC charges
  let idx := idx && within (fun a b => decide (a ≤ b)) maxS smults
  let idx := idx && within (fun a b => decide (a ≥ b)) minS smults
  let s2 := smults.map (· - 1)
  let max_s2 := s2.sum
  let min_s2 := 2 * amax s2 - max_s2
  let idx := match anyT with
    | none => idx
    | some ts =>
      let t2 := ts.map (· - 1)
      idx && t2.any (fun t => decide (t ≥ min_s2)) && t2.any (fun t => decide (t ≤ max_s2))
  match allT with
    | none => idx
    | some ts =>
      let t2 := ts.map (· - 1)
      idx && t2.all (fun t => decide (t ≥ min_s2)) && t2.all (fun t => decide (t ≤ max_s2))

/-- spaces.py:843-895 `filter_spaces`: the rows (charges, multiplicities, and any other data `x`) kept, in order. -/
def filterSpaces {α : Type} (rows : List (List Int × List Int × α)) (maxC minC maxS minS : Bound)
    (anyT allT : Option (List Int)) : List (List Int × List Int × α) :=
  rows.filter fun r => filterKeeps r.1 r.2.1 maxC minC maxS minS anyT allT

end Verif.Spaces
