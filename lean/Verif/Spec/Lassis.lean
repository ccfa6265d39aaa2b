import Verif.Spec.SpaceLists
import Verif.Model.Lassis
/-!
# The LASSIS model space, as a user would describe it

LASSIS combines, in all possible ways, electron hops between pairs of fragments and changes of the multiplicity of
single fragments ("spin flips").
-/
namespace Verif.Spec
open Verif.Spaces Verif.Lassis

/-- An electron hops from `src` to `dst`; `s = 0,1,2,3` stands for `--`, `-+`, `+-`, `++`, the directions in which the
multiplicities of `src` and `dst` change by one. -/
structure ElHop where
  src : Nat
  dst : Nat
  s : Nat
deriving DecidableEq

/-- Change of the multiplicity of the source. -/
def ElHop.dSrc (x : ElHop) : Int := if x.s < 2 then -1 else 1
/-- Change of the multiplicity of the destination. -/
def ElHop.dDst (x : ElHop) : Int := if x.s % 2 = 0 then -1 else 1

/-- A spin flip `(k, d)` of fragment `k` changes its multiplicity by -2 (`d = 0`) or +2. -/
def flipBy (d : Nat) : Int := if d = 0 then -2 else 2

/-- The fragments a set of hops and flips acts on. -/
def touched (hops : List ElHop) (flips : List (Nat × Nat)) : List Nat :=
  hops.flatMap (fun x => [x.src, x.dst]) ++ flips.map (·.1)

/-- The record of which fragments are linked by hops: the pairs, sorted. `setOrder` is the order in which a Python set
of the two is traversed. -/
def hopRecord (setOrder : List Nat → List Nat) (hops : List ElHop) : List (List Nat) :=
  (hops.map fun x => setOrder [min x.src x.dst, max x.src x.dst]).mergeSort tupLe

/-- `t` is one of the rootspaces obtained from `ref` by the given hops and flips, no two of which act on the same
fragment: charges and multiplicities are changed accordingly, every fragment is in a possible state, and the local
projections are any that add up to the projection of the reference. -/
structure IsProduct (setOrder : List Nat → List Nat) (ref : Space) (hops : List ElHop) (flips : List (Nat × Nat))
    (t : Space) : Prop where
  fits : Fits t ref
  once : (touched hops flips).Nodup
  source : ∀ x ∈ hops, el t.charges x.src = el ref.charges x.src + 1 ∧ el t.smults x.src = el ref.smults x.src + x.dSrc
  dest : ∀ x ∈ hops, el t.charges x.dst = el ref.charges x.dst - 1 ∧ el t.smults x.dst = el ref.smults x.dst + x.dDst
  flipped : ∀ y ∈ flips, el t.charges y.1 = el ref.charges y.1 ∧ el t.smults y.1 = el ref.smults y.1 + flipBy y.2
  rest : ∀ k, k ∉ touched hops flips → SameFragNoM t ref k
  total : totalSpin t = totalSpin ref
  pairs : t.entmap = hopRecord setOrder hops

/-- A Python set of two of the first `n` numbers contains these two, in whatever order. -/
def PairOrder (setOrder : List Nat → List Nat) (n : Nat) : Prop :=
  ∀ i j, i < j → j < n → (setOrder [i, j]).Perm [i, j]

/-- CI vectors are available for this hop. -/
def HasHop (ch : Nat → Nat → Nat → Bool) (ref : Space) (x : ElHop) : Prop :=
  x.src < ref.nfrag ∧ x.dst < ref.nfrag ∧ x.s < 4 ∧ ch x.src x.dst x.s = true

/-- CI vectors are available for this spin flip. -/
def HasFlip (sf : Nat → Nat → Bool) (ref : Space) (y : Nat × Nat) : Prop :=
  y.1 < ref.nfrag ∧ y.2 < 2 ∧ sf y.1 y.2 = true

/-- `ne` electrons in `norb` orbitals can be in a state of multiplicity `smult`. -/
def Room (norb ne smult : Int) : Prop :=
  1 ≤ smult ∧ (ne - (smult - 1)) % 2 = 0 ∧ smult - 1 ≤ ne ∧ smult - 1 ≤ 2 * norb - ne

/-- The local spins of both can couple to the same total spin. -/
def CommonSpin (a b : Space) : Prop :=
  ∃ S ta tb, Coupled (a.smults.map (· - 1)) ta S ∧ Coupled (b.smults.map (· - 1)) tb S

/-- Each fragment of `t` carries the CI vectors made for it, rotated to its local projection: those made for the hop it
takes part in, those made for its spin flip, or those of the reference. -/
structure RightCi (hops : List ElHop) (flips : List (Nat × Nat)) (t : Space) (ci : List (Option Ci)) : Prop where
  len : ci.length = t.nfrag
  hop : ∀ x ∈ hops, ci.getD x.src none = some (.hop x.src x.dst x.s 0, el t.spins x.src) ∧
    ci.getD x.dst none = some (.hop x.src x.dst x.s 1, el t.spins x.dst)
  flip : ∀ y ∈ flips, ci.getD y.1 none = some (.flip y.1 y.2, el t.spins y.1)
  rest : ∀ k, k < t.nfrag → k ∉ touched hops flips → ci.getD k none = some (.ref k, el t.spins k)

/-- The same rootspace: same quantum numbers and the same record of hops. -/
def SameRoot (a b : Space) : Prop := SameNumbers a b ∧ a.entmap = b.entmap

/-- The hash function separates products of hops and flips that differ only in the record of hops (which `==`
ignores): no collisions among these. -/
def SeparatesRecords (setOrder : List Nat → List Nat) (ref : Space) (h : List Space.HashItem → Int) : Prop :=
  ∀ a b xs ys xs' ys', IsProduct setOrder ref xs ys a → IsProduct setOrder ref xs' ys' b → SameNumbers a b →
    h a.hashKey = h b.hashKey → a.entmap = b.entmap

/-- What is assumed of the input: the reference is possible, hops are between different fragments, every set of
available hops acting on disjoint pairs of fragments is possible, and so is each available spin flip. -/
structure LassisInput (setOrder : List Nat → List Nat) (ch : Nat → Nat → Nat → Bool) (sf : Nat → Nat → Bool)
    (ref : Space) : Prop where
  fits : Fits ref ref
  nonempty : 0 < ref.nfrag
  record : ref.entmap = []
  apart : ∀ x, HasHop ch ref x → x.src ≠ x.dst
  hops : ∀ xs : List ElHop, (∀ x ∈ xs, HasHop ch ref x) → (touched xs []).Nodup →
    ∃ t, IsProduct setOrder ref xs [] t
  flips : ∀ y, HasFlip sf ref y →
    Room (el ref.nlas y.1) (el ref.nelelas y.1 - el ref.charges y.1) (el ref.smults y.1 + flipBy y.2)

/-- A simpler condition on the input: the total projection is -1/2, 0 or 1/2, and each available hop and flip on its own
leaves its fragments in possible states. -/
structure LowSpinInput (ch : Nat → Nat → Nat → Bool) (sf : Nat → Nat → Bool) (ref : Space) : Prop where
  fits : Fits ref ref
  nonempty : 0 < ref.nfrag
  record : ref.entmap = []
  low : -1 ≤ totalSpin ref ∧ totalSpin ref ≤ 1
  hops : ∀ x, HasHop ch ref x → x.src ≠ x.dst ∧
    Room (el ref.nlas x.src) (ref.nelec x.src - 1) (el ref.smults x.src + x.dSrc) ∧
    Room (el ref.nlas x.dst) (ref.nelec x.dst + 1) (el ref.smults x.dst + x.dDst)
  flips : ∀ y, HasFlip sf ref y → Room (el ref.nlas y.1) (ref.nelec y.1) (el ref.smults y.1 + flipBy y.2)

/-- `t` is in the list. -/
def Present (out : List Root) (t : Space) : Prop := ∃ r ∈ out, SameRoot r.sp t

end Verif.Spec
