import Mathlib.Data.List.Basic
import Mathlib.Data.List.Range
import Mathlib.Data.List.Dedup
import Mathlib.Algebra.Order.Ring.Int
import Mathlib.Data.Rat.Defs
/-!
# Model of rootspaces

/repo/my_pyscf/lassi/spaces.py. A rootspace is the table of quantum numbers of the fragments. One-dimensional integer
arrays of length `nfrag` are lists of integers; array-valued properties are functions of the fragment index. An index
argument is a fragment number in `0..nfrag-1` (NumPy's negative indices and `IndexError` are not modelled). The CI
vectors and the link to the molecule are not part of this model. Floating-point weights are rationals.
-/
namespace Verif.Spaces

/-- Element `i` of an integer array. -/
abbrev el (l : List Int) (i : Nat) : Int := l.getD i 0

/-- `l[i] += d` -/
def bump (l : List Int) (i : Nat) (d : Int) : List Int := l.modify i (· + d)

/-- spaces.py:19-39: the attributes of `SingleLASRootspace` used here. -/
structure Space where
  nlas : List Int
  nelelas : List Int
  spins : List Int
  smults : List Int
  charges : List Int
  weight : Rat
  entmap : List (List Nat) := []
deriving DecidableEq

namespace Space

/-- spaces.py:28 -/
def nfrag (sp : Space) : Nat := sp.nlas.length
/-- spaces.py:41-42 -/
def nelec (sp : Space) (i : Nat) : Int := el sp.nelelas i - el sp.charges i
/-- spaces.py:43-44 -/
def neleca (sp : Space) (i : Nat) : Int := (sp.nelec i + el sp.spins i) / 2
/-- spaces.py:45-46 -/
def nelecb (sp : Space) (i : Nat) : Int := (sp.nelec i - el sp.spins i) / 2
/-- spaces.py:49-50 -/
def nholea (sp : Space) (i : Nat) : Int := el sp.nlas i - sp.neleca i
/-- spaces.py:51-52 -/
def nholeb (sp : Space) (i : Nat) : Int := el sp.nlas i - sp.nelecb i
/-- spaces.py:55-56 -/
def nelecu (sp : Space) (i : Nat) : Int := (sp.nelec i + (el sp.smults i - 1)) / 2
/-- spaces.py:59-60 -/
def nholeu (sp : Space) (i : Nat) : Int := el sp.nlas i - sp.nelecu i

/-- spaces.py:64-68 `__eq__`. Comparing two arrays of the same length elementwise and taking `np.all` is equality
of the lists. -/
def eq (a b : Space) : Bool :=
  if a.nfrag ≠ b.nfrag then false
  else decide (a.spins = b.spins) && decide (a.smults = b.smults) && decide (a.charges = b.charges)

/-- The elements of the tuple hashed in spaces.py:70-72: integers and, from `entmap`, tuples of integers. -/
inductive HashItem where
  | int (i : Int)
  | tup (l : List Nat)
deriving DecidableEq

/-- spaces.py:70-72: the tuple passed to `hash`. -/
def hashKey (sp : Space) : List HashItem :=
  (HashItem.int sp.nfrag :: sp.spins.map .int) ++ sp.smults.map .int ++ sp.charges.map .int ++ sp.entmap.map .tup

end Space

/-- `x in seen` for a Python set `seen`: some stored element has the same hash and compares equal. `h` is Python's
hash function on tuples. -/
def pyIn (h : List Space.HashItem → Int) (seen : List Space) (x : Space) : Bool :=
  seen.any fun y => decide (h y.hashKey = h x.hashKey) && y.eq x

/-- `set (xs)`: insert each element unless already present. -/
def pySet (h : List Space.HashItem → Int) (xs : List Space) : List Space :=
  xs.foldl (fun seen x => if pyIn h seen x then seen else seen ++ [x]) []

/-- The exceptions that matter here. `index` is an `IndexError`. -/
inductive Err where
  | impossibleSpin
  | assertion
  | index
deriving DecidableEq

/-- `assert (c)` -/
def assert' (c : Bool) : Except Err Unit := if c then .ok () else .error .assertion

/-- The constructor `CSFTransformer (norb, neleca, nelecb, smult).ncsf` of the external package: `none` when it
raises `ImpossibleSpinError`, otherwise the number of configuration state functions. -/
abbrev NCsf := Int → Int → Int → Int → Option Int

/-- Number of CSFs or the exception. -/
def csf (f : NCsf) (norb na nb smult : Int) : Except Err Int :=
  match f norb na nb smult with
  | some k => .ok k
  | none => .error .impossibleSpin

namespace Space

/-- spaces.py:88-124 `get_single`. Logging omitted. -/
def getSingle (f : NCsf) (sp : Space) (i a : Nat) (m si sa : Int) : Except Err Space := do
  let charges := bump (bump sp.charges i 1) a (-1)
  let dm := 1 - 2 * m
  let spins := bump (bump sp.spins i (-dm)) a dm
  let smults := bump (bump sp.smults i si) a sa
  let i_neleca := (el sp.nelelas i - el charges i + el spins i) / 2
  let i_nelecb := (el sp.nelelas i - el charges i - el spins i) / 2
  let a_neleca := (el sp.nelelas a - el charges a + el spins a) / 2
  let a_nelecb := (el sp.nelelas a - el charges a - el spins a) / 2
  let i_ncsf ← csf f (el sp.nlas i) i_neleca i_nelecb (el smults i)
  let a_ncsf ← csf f (el sp.nlas a) a_neleca a_nelecb (el smults a)
  if a_neleca = el sp.nlas a ∧ a_nelecb = el sp.nlas a ∧ el smults a > 1 then
    throw .impossibleSpin
  if i_neleca = 0 ∧ i_nelecb = 0 ∧ el smults i > 1 then
    throw .impossibleSpin
  assert' (decide (i_neleca ≥ 0))
  assert' (decide (i_nelecb ≥ 0))
  assert' (decide (a_neleca ≥ 0))
  assert' (decide (a_nelecb ≥ 0))
  assert' (decide (i_ncsf ≠ 0))
  assert' (decide (a_ncsf ≠ 0))
  pure ⟨sp.nlas, sp.nelelas, spins, smults, charges, 0, []⟩

/-- spaces.py:168-179 `get_valid_smult_change`; the leading `assert` is a precondition on the caller. -/
def getValidSmultChange (sp : Space) (i : Nat) (dneleca dnelecb : Int) : List Int :=
  let neleca := sp.neleca i + dneleca
  let nelecb := sp.nelecb i + dnelecb
  let new_2ms := neleca - nelecb
  let min_smult := |new_2ms| + 1
  let min_npair := max 0 (neleca + nelecb - el sp.nlas i)
  let max_smult := 1 + neleca + nelecb - 2 * min_npair
  (if el sp.smults i > min_smult then [-1] else []) ++ (if el sp.smults i < max_smult then [1] else [])

/-- `itertools.product (xs, ys)` -/
def product2 {α β : Type} (xs : List α) (ys : List β) : List (α × β) := xs.flatMap fun x => ys.map fun y => (x, y)

/-- One body of the loops of spaces.py:188-197 and 201-210: `m` is 0 for an alpha electron and 1 for a beta one.
`ImpossibleSpinError` is caught; any other exception propagates. -/
def singlesFor (f : NCsf) (sp : Space) (mask : Nat → Nat → Bool) (m : Int) (ia : Nat × Nat) (acc : List Space) :
    Except Err (List Space) :=
  let (i, a) := ia
  if i = a then .ok acc
  else if !mask i a then .ok acc
  else
    let si_range := sp.getValidSmultChange i (if m = 0 then -1 else 0) (if m = 0 then 0 else -1)
    let sa_range := sp.getValidSmultChange a (if m = 0 then 1 else 0) (if m = 0 then 0 else 1)
    (product2 si_range sa_range).foldlM (fun acc (s : Int × Int) =>
      match sp.getSingle f i a m s.1 s.2 with
      | .ok new => .ok (acc ++ [new])
      | .error .impossibleSpin => .ok acc
      | .error e => .error e) acc

/-- `np.where (v > 0)[0]` -/
def wherePos (n : Nat) (v : Nat → Int) : List Nat := (List.range n).filter fun i => decide (v i > 0)

/-- spaces.py:181-211 `get_singles`. -/
def getSingles (f : NCsf) (sp : Space) (mask : Nat → Nat → Bool) : Except Err (List Space) := do
  let singles ← (product2 (wherePos sp.nfrag sp.neleca) (wherePos sp.nfrag sp.nholea)).foldlM
    (fun acc ia => sp.singlesFor f mask 0 ia acc) []
  (product2 (wherePos sp.nfrag sp.nelecb) (wherePos sp.nfrag sp.nholeb)).foldlM
    (fun acc ia => sp.singlesFor f mask 1 ia acc) singles

/-- spaces.py:399-408 `excited_fragments` (`other` given), as the truth value at fragment `i`. -/
def excitedFragment (sp other : Space) (ignore_m : Bool) (i : Nat) : Bool :=
  let dneleca := sp.neleca i - other.neleca i
  let dnelecb := sp.nelecb i - other.nelecb i
  let dsmults := el sp.smults i - el other.smults i
  let (dneleca, dnelecb) := if ignore_m then (dneleca + dnelecb, 0) else (dneleca, dnelecb)
  !(decide (dneleca = 0) && decide (dnelecb = 0) && decide (dsmults = 0))

/-- `np.where (excited_fragments (...))[0]` -/
def excitedWhere (sp other : Space) (ignore_m : Bool) : List Nat :=
  (List.range sp.nfrag).filter (sp.excitedFragment other ignore_m)

/-- spaces.py:369-372 `set_entmap_`. `setOrder` is the iteration order of a Python set built from an ascending
list. -/
def setEntmap (setOrder : List Nat → List Nat) (sp ref : Space) (ignore_m : Bool) : Space :=
  { sp with entmap := [setOrder (sp.excitedWhere ref ignore_m)] }

/-- Sum over the fragments other than `i` and `a` (`sum (x[ofrags])`). -/
def sumOthers (n i a : Nat) (x : Nat → Int) : Int :=
  (((List.range n).filter fun p => !(p == i) && !(p == a)).map x).sum

/-- `np.where (ofrags & cond)[0][0]` -/
def firstOther (n i a : Nat) (cond : Nat → Bool) : Except Err Nat :=
  match (List.range n).filter (fun p => (!(p == i) && !(p == a)) && cond p) with
  | p :: _ => .ok p
  | [] => .error .index

/-- spaces.py:126-166 `get_single_any_m` (without CI vectors). Truth value of an integer: nonzero. -/
def getSingleAnyM (f : NCsf) (setOrder : List Nat → List Nat) (sp : Space) (i a : Nat) (dsi dsa : Int) :
    Except Err Space := do
  let mi := el sp.spins i
  let ma := el sp.spins a
  let si := el sp.smults i + dsi
  let sa := el sp.smults a + dsa
  let i_a_pos := decide (sp.neleca i > 0) && decide (|mi - 1| < si)
  let i_b_pos := decide (sp.nelecb i > 0) && decide (|mi + 1| < si)
  let a_a_pos := decide (sp.nholea a > 0) && decide (|ma + 1| < sa)
  let a_b_pos := decide (sp.nholeb a > 0) && decide (|ma - 1| < sa)
  let max_up := sumOthers sp.nfrag i a (fun p => el sp.smults p - 1 - el sp.spins p) / 2
  let max_dn := sumOthers sp.nfrag i a (fun p => el sp.spins p + el sp.smults p - 1) / 2
  let new ←
    if i_a_pos && a_a_pos then sp.getSingle f i a 0 dsi dsa
    else if i_b_pos && a_b_pos then sp.getSingle f i a 1 dsi dsa
    else if i_a_pos && a_b_pos && decide (max_up ≠ 0) then do
      let p ← firstOther sp.nfrag i a fun p => decide (el sp.spins p < el sp.smults p - 1)
      let dsp := if sp.nholeu p > 0 then 1 else -1
      let mid ← sp.getSingle f i p 0 dsi dsp
      mid.getSingle f p a 1 (-dsp) dsa
    else if i_b_pos && a_a_pos && decide (max_dn ≠ 0) then do
      let p ← firstOther sp.nfrag i a fun p => decide (el sp.spins p > 1 - el sp.smults p)
      let dsp := if sp.nholeu p > 0 then 1 else -1
      let mid ← sp.getSingle f i p 1 dsi dsp
      mid.getSingle f p a 0 (-dsp) dsa
    else throw .impossibleSpin
  pure (new.setEntmap setOrder sp true)

end Space
end Verif.Spaces
