import Mathlib.Data.List.Sort
import Verif.Model.SpaceLists
/-!
# Model of the recognition and description of single excitations (/repo/my_pyscf/lassi/spaces.py:74-86, 336-367)
-/
namespace Verif.Spaces
namespace Space

/-- spaces.py:57-58, 61-62 -/
def nholed (sp : Space) (i : Nat) : Int := el sp.nlas i - (sp.nelec i - (el sp.smults i - 1)) / 2

/-- `np.sort` -/
def npSort (l : List Int) : List Int := l.insertionSort (· ≤ ·)

/-- `x.sum ()` over the fragments. -/
def sumFrag (n : Nat) (x : Nat → Int) : Int := ((List.range n).map x).sum

/-- spaces.py:336-352 `is_single_excitation_of`. -/
def isSingleExcitationOf (self other : Space) : Bool :=
  if sumFrag self.nfrag self.nelec ≠ sumFrag other.nfrag other.nelec then false
  else if self.spins.sum ≠ other.spins.sum then false
  else
    let idx := self.excitedWhere other false
    if idx.length ≠ 2 then false
    else if npSort (idx.map fun k => self.nelec k - other.nelec k) ≠ [-1, 1] then false
    else if npSort (idx.map fun k => el self.spins k - el other.spins k) ≠ [-1, 1] then false
    else if (idx.map fun k => |el self.smults k - el other.smults k|).any (fun x => decide (x ≠ 1)) then false
    else true

/-- The tuple returned by `describe_single_excitation`; `alpha` is `e_spin == 'a'`, `srcUp` is `src_ds == 'u'`. -/
structure Description where
  src : Nat
  dest : Nat
  alpha : Bool
  srcUp : Bool
  destUp : Bool
  lroots : Int
deriving DecidableEq, Repr

/-- spaces.py:354-362 `describe_single_excitation`; the outer `none` is `IndexError`, the inner one the value `None`. -/
def describe (self other : Space) : Option (Option Description) :=
  if !self.isSingleExcitationOf other then some none
  else do
    let src ← ((List.range self.nfrag).filter fun k => decide (self.nelec k - other.nelec k = -1)).head?
    let dest ← ((List.range self.nfrag).filter fun k => decide (self.nelec k - other.nelec k = 1)).head?
    let alpha := (List.range self.nfrag).any fun k => decide (self.neleca k ≠ other.neleca k)
    some (some ⟨src, dest, alpha, decide (el self.smults src > el other.smults src),
      decide (el self.smults dest > el other.smults dest), min (other.nelecu src) (other.nholed dest)⟩)

/-- spaces.py:364-367 `single_excitation_key`; `none` is an exception (unpacking `None`). -/
def excKey (self other : Space) : Option (Nat × Nat × Nat) :=
  match self.describe other with
  | some (some d) => some (d.src, d.dest, 2 * d.srcUp.toNat + d.destUp.toNat)
  | _ => none

/-- Fragments of the moves with electron spin `m`: `i[idx_a]` etc. -/
def ofSpin (m : Nat) (x : List (Nat × Nat)) : List Nat := (x.filter fun p => p.2 == m).map Prod.fst

/-- spaces.py:74-86 `possible_excitation`: each `np.unique (…, return_counts=True)` with the comparison that follows. The
three arguments are given as the list of moves `(i, a, s)`; fragment indices are assumed in range (else `IndexError`). -/
def possibleExcitation (self : Space) (moves : List (Nat × Nat × Nat)) : Bool :=
  let tooMany (have_ : Nat → Int) (l : List Nat) : Bool := l.dedup.any fun f => decide (have_ f < (l.count f : Int))
  let i := moves.map fun p => (p.1, p.2.2)
  let a := moves.map fun p => (p.2.1, p.2.2)
  if tooMany self.neleca (ofSpin 0 i) then false
  else if tooMany self.nholea (ofSpin 0 a) then false
  else if tooMany self.nelecb (ofSpin 1 i) then false
  else if tooMany self.nholeb (ofSpin 1 a) then false
  else true

end Space
end Verif.Spaces
