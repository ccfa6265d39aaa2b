import Verif.Model.Lstdm
import Verif.Model.Addr
import Mathlib.Data.Nat.Pairing
import Mathlib.Algebra.Field.Defs
/-!
# Model of `LSTDM.kernel` (/repo/my_pyscf/lassi/op_o1/stdm.py)

All model states at once: the tables of interactions of all pairs of rootspaces (lower triangle), the search for equivalent
interactions, the loops over local roots, the factors of the spectator fragments with halved diagonal, and the final addition of
the transpose.

Simplifications: those of Model/Lstdm.lean; weights below 1e-8 are not screened (stdm.py:678); no masks, no perturbation-theory
orders (stdm.py:402-416 with default arguments); no linearly equivalent rootspaces (`umat_root` empty), so that the loop of
stdm.py:1084-1096 does nothing.
-/
namespace Verif.Lstdm
open Verif.Spec (Inter)
open Verif.Signs Verif.Exc Verif.Addr

/-- frag.py:206-211 `try_get_1` and 217-236, 238-262: the tables are stored by unique rootspace and local root; `g` is the
position of a model state. -/
def FragInt.reindex {K : Type} (F : FragInt K) (g : Nat → Nat) : FragInt K where
  ovlp i j := F.ovlp (g i) (g j)
  h s i j := F.h s (g i) (g j)
  hh s i j := F.hh s (g i) (g j)
  phh s i j := F.phh s (g i) (g j)
  sm i j := F.sm (g i) (g j)
  dm1 i j := F.dm1 (g i) (g j)
  dm2 i j := F.dm2 (g i) (g j)
  upper i j := F.upper (g i) (g j)

/-- The data of the class: orbitals of the fragments; per rootspace the numbers of local roots (`cols`, the columns of `lroots`) and
of electrons of all fragments; `uroot f r` is `urootstr[f,r]`, the unique rootspace of rootspace `r` for fragment `f`; the tables of
the fragments, where the pair of a unique rootspace and a local root is one number; the spin multiplicities of all fragments per
rootspace (stdm.py:121-122), where `none` stands for the array of multiplicities of which some are `None`. -/
structure Kern (K : Type) where
  nlas : List Nat
  cols : List (List Nat)
  nelec : List (List (Nat × Nat))
  uroot : Nat → Nat → Nat
  tabs : Nat → FragInt K
  smult : Option (List (List Int)) := none

namespace Kern
variable {K : Type} (k : Kern K)

/-- stdm.py:91 `self.rootaddr`. -/
def rootOf (st : Nat) : Nat := ((getRootaddrFragaddr k.nlas.length k.cols).getD ([], [])).1.getD st 0
/-- stdm.py:91-92 `self.envaddr`. -/
def envOf (f st : Nat) : Nat := (((getRootaddrFragaddr k.nlas.length k.cols).getD ([], [])).2.getD f []).getD st 0

/-- The position of a model state in the tables of fragment `f`. -/
def loc (f st : Nat) : Nat := Nat.pair (k.uroot f (k.rootOf st)) (k.envOf f st)

/-- The object of Model/Lstdm.lean for the model states of all rootspaces. -/
def toLstdm : Lstdm K where
  nlas := k.nlas
  ints f := (k.tabs f).reindex (k.loc f)
  nelec st := k.nelec.getD (k.rootOf st) []

/-- stdm.py:93-95 `offs0`. -/
def offs0 (r : Nat) : Nat := (npCumsum (k.cols.map List.prod)).getD r 0 - (k.cols.map List.prod).getD r 0
/-- stdm.py:100-103 `self.strides[r][f]`. -/
def stride (r f : Nat) : Nat := ((k.cols.getD r []).take f).prod

/-- stdm.py:553-578 `_get_addr_range`; for one rootspace the rows of `get_rootaddr_fragaddr` are `addrsOf`. -/
def addrRange (r : Nat) (inv : List Nat) : List Nat :=
  let inv := PySet.listSet inv
  let col := inv.map (fun f => (k.cols.getD r []).getD f 0)
  (List.range col.prod).map (fun t =>
    k.offs0 r + (inv.zipIdx.map (fun x => k.stride r x.1 * (addrsOf col x.2).getD t 0)).sum)

/-- stdm.py:673-677: one factor of the overlap matrix, `np.multiply.outer (ov, o).transpose (0,2,1,3)` reshaped; a matrix is given
with the numbers of its rows and columns. -/
def kron1 [Mul K] (ov : Nat × Nat × (Nat → Nat → K)) (o : Nat × Nat × (Nat → Nat → K)) : Nat × Nat × (Nat → Nat → K) :=
  (ov.1 * o.1, ov.2.1 * o.2.1, fun x y => ov.2.2 (x / o.1) (y / o.2.1) * o.2.2 (x % o.1) (y % o.2.1))

variable [Field K]

/-- `self.ints[f].get_ovlp (rbra, rket)` with its shape. -/
def ovlpMat (f rbra rket : Nat) : Nat × Nat × (Nat → Nat → K) :=
  ((k.cols.getD rbra []).getD f 0, (k.cols.getD rket []).getD f 0,
    fun a b => (k.tabs f).get1Ovlp (Nat.pair (k.uroot f rbra) a) (Nat.pair (k.uroot f rket) b))

/-- stdm.py:639-686 `_get_spec_addr_ovlp_1space`: bra states, ket states and factors. -/
def specAddrOvlp (rbra rket : Nat) (inv : List Nat) : Option (List (Nat × Nat × K)) := do
  let inv := PySet.listSet inv
  let nb := k.nelec.getD rbra []
  let nk := k.nelec.getD rket []
  let sb ← fermionSpinShuffle (nb.map Prod.fst) (nb.map Prod.snd)
  let sk ← fermionSpinShuffle (nk.map Prod.fst) (nk.map Prod.snd)
  let fac := sb * sk * fermionFragShuffle (nb.map (fun p => p.1 + p.2)) inv * fermionFragShuffle (nk.map (fun p => p.1 + p.2)) inv
  let spec := (List.range k.nlas.length).filter (fun f => decide (f ∉ inv))
  let braRng := k.addrRange rbra spec
  let ketRng := k.addrRange rket spec
  let o := spec.foldl (fun o f => kron1 (k.ovlpMat f rbra rket) o) (1, 1, fun _ _ => ((fac : Int) : K))
  pure ((List.range o.1).flatMap (fun x => (List.range o.2.1).filterMap (fun y =>
    if rbra = rket then
      if x < y then none
      else some (braRng.getD x 0, ketRng.getD y 0, if x = y then o.2.2 x y * (1 / 2) else o.2.2 x y)
    else some (braRng.getD x 0, ketRng.getD y 0, o.2.2 x y))))

/-- A row of an excitation table: bra and ket rootspace, and the other columns. -/
abbrev ExcRow := (Nat × Nat) × Lstdm.Row

/-- The numbers of electrons as the integers of `nelec_frs`. -/
def nelecI : List (List (Int × Int)) := k.nelec.map (fun l => l.map (fun p => ((p.1 : Int), (p.2 : Int))))

/-- stdm.py:245 and utilities.py:121-165 `get_scallowed_interactions`: the test of the C library, with or without multiplicities. -/
def allowed (p : Nat × Nat) : Bool :=
  match k.smult with
  | none => SC.cplCharge k.nelecI p
  | some s => SC.cplSpin k.nelecI s p

/-- stdm.py:245-254: the interactions, lower triangle only. The list returned by the C library is that of all pairs that pass the
screening, ordered (property C07). -/
def scai : List (Nat × Nat) :=
  let n := k.cols.length
  tril true (((List.range n).flatMap (fun i => (List.range n).map (fun j => (i, j)))).filter k.allowed)

/-- The rows of table `1s`. -/
def row1sOf : (Nat × Nat) × Inter → Option ExcRow
  | (p, .s1 i j) => some (p, .s1 i j)
  | _ => none
/-- The rows of table `1s1c`. -/
def row1s1cOf : (Nat × Nat) × Inter → Option ExcRow
  | (p, .s1c1 i j l s) => some (p, .s1c1 i j l s)
  | _ => none
/-- The rows of table `2c`. -/
def row2cOf : (Nat × Nat) × Inter → Option ExcRow
  | (p, .c2 i j l m s) => some (p, .c2 i j l m s)
  | _ => none

/-- stdm.py:130-139: the tables `1d`, `2d`, `1c`, `1c1d`, `1s`, `1s1c`, `2c`. -/
def tables : List (List ExcRow) :=
  let nel := k.nelecI
  let scai := k.scai
  let null := (table rowNull nel scai).map Prod.fst
  let c1 := (table row1c nel scai).filterMap Lstdm.as1c
  let nfrags := k.nlas.length
  [ (table1d nfrags null).map (fun x => (x.1, .d1 x.2)),
    (table2d nfrags null).map (fun x => (x.1, .d2 x.2.1 x.2.2)),
    c1.map (fun x => (x.1, .c1 x.2.1 x.2.2.1 x.2.2.2)),
    (table1c1d nfrags c1).map (fun x => (x.1, .c1d1 x.2.1 x.2.2.1 x.2.2.2.1 x.2.2.2.2)),
    (table row1s nel scai).filterMap row1sOf,
    (table row1s1c nel scai ++ table row1s1cT nel scai).filterMap row1s1cOf,
    (table rowPair nel scai ++ (table rowSplit nel scai ++ table rowCoalesce nel scai) ++ table rowScatter nel scai).filterMap row2cOf ]

/-- The words hashed for a row (slatercondon.c:335-361), first for `fprint`, then for `fprintLT`. -/
def words (x : ExcRow) : List Int × List Int :=
  SC.fprintRows (fun r f => (k.uroot f.toNat r : Int)) x.1.1 x.1.2 (x.2.inv.map (fun f : Nat => (f : Int)))

/-- stdm.py:171-188 `interaction_fprints`; the words are C `long`s. -/
def fprint (x : ExcRow) : UInt64 := SC.fnv1a ((k.words x).1.map (fun w => UInt64.ofNat w.toNat))
@[inherit_doc fprint]
def fprintLT (x : ExcRow) : UInt64 := SC.fnv1a ((k.words x).2.map (fun w => UInt64.ofNat w.toNat))

/-- stdm.py:449-452: the images of a unique row `u`; bra and ket are exchanged where the fingerprints differ. -/
def images (tab : List ExcRow) (u : ExcRow) : List (Nat × Nat) :=
  (tab.filter (fun x => k.fprintLT x == k.fprintLT u)).map (fun x => if k.fprint x != k.fprint u then (x.1.2, x.1.1) else x.1)

/-- stdm.py:434-456 `find_unique_exc`: the unique rows (the first row of each fingerprint, `np.unique` sorts the fingerprints). The
order of the images, which `np.argsort` leaves open, is that of the table. -/
def findUniqueExc (tab : List ExcRow) : List ExcRow :=
  ((tab.map k.fprintLT).dedup.mergeSort (fun a b => decide (a ≤ b))).filterMap (fun h => tab.find? (fun x => k.fprintLT x == h))

/-- stdm.py:427-428, 452: the dictionary `self.nonuniq_exc`; the key is the row without the spin column. -/
def nonuniqExc : List (((Nat × Nat) × List Nat) × List (Nat × Nat)) :=
  k.tables.flatMap (fun tab => (k.findUniqueExc tab).map (fun u => ((u.1, u.2.inv), k.images tab u)))

/-- `self.nonuniq_exc[key]`: the last assignment wins; `none` is a `KeyError`. -/
def lookup (key : (Nat × Nat) × List Nat) : Option (List (Nat × Nat)) :=
  (k.nonuniqExc.reverse.find? (fun e => e.1 == key)).map Prod.snd

/-- The arrays `tdm1s[bra,ket]`, `tdm2s[bra,ket]`. -/
abbrev Arr (K : Type) := Nat → Nat → D1 K × D2 K

/-- stdm.py:703-743 `_put_SD1_`, `_put_SD2_`: `tdm[b,k] += D * w`. -/
def addTo (acc : Arr K) (b c : Nat) (d : D1 K × D2 K) (w : K) : Arr K := fun b' c' =>
  if b' = b ∧ c' = c then
    (fun s p q => (acc b' c').1 s p q + d.1 s p q * w, fun s p q r u => (acc b' c').2 s p q r u + d.2 s p q r u * w)
  else acc b' c'

/-- `np.dot (self.envaddr[st], self.strides[r])`. -/
def dotEnv (st r : Nat) : Nat := ((List.range k.nlas.length).map (fun f => k.envOf f st * k.stride r f)).sum

/-- stdm.py:596-637 `_get_spec_addr_ovlp` followed by the loop over its result. -/
def putImages (cache : List ((Nat × Nat) × List (Nat × Nat × K))) (b c : Nat) (d : D1 K × D2 K) (acc : Arr K) : Arr K :=
  cache.foldl (fun acc e => e.2.foldl (fun acc x =>
    addTo acc (x.1 + k.dotEnv b e.1.1) (x.2.1 + k.dotEnv c e.1.2) d x.2.2) acc) acc

variable [DecidableEq K]

/-- stdm.py:1003-1011, 1062-1069 `_crunch_env_`, `_loop_lroots_`. -/
def crunchEnv (acc : Arr K) (u : ExcRow) : Option (Arr K) := do
  let imgs ← k.lookup (u.1, u.2.inv)
  let cache ← imgs.mapM (fun im => (k.specAddrOvlp im.1 im.2 u.2.inv).map (fun l => (im, l)))
  ((k.addrRange u.1.1 u.2.inv).flatMap (fun b => (k.addrRange u.1.2 u.2.inv).map (fun c => (b, c)))).foldlM
    (fun acc bc => (k.toLstdm.crunch bc.1 bc.2 u.2).map (fun d => k.putImages cache bc.1 bc.2 d acc)) acc

/-- stdm.py:1081-1083 `_add_transpose_`. -/
def addTranspose (acc : Arr K) : Arr K := fun b c =>
  (fun s p q => (acc b c).1 s p q + (acc c b).1 s q p, fun s p q r u => (acc b c).2 s p q r u + (acc c b).2 s q p u r)

/-- stdm.py:1098-1115 `kernel` with `_crunch_all_` (1071-1079). -/
def kernel : Option (Arr K) :=
  ((k.tables.flatMap k.findUniqueExc).foldlM k.crunchEnv (fun _ _ => (zero1, zero2))).map addTranspose

end Kern
end Verif.Lstdm
