import Verif.Model.OuterGen
/-!
# Model: the spinless representation of CI vectors (my_pyscf/lassi/op_o0.py)
-/
namespace Verif.Spinless
open Verif.Np Verif.Fockspace Verif.Outer

variable {K : Type}

/-- Entry `ia * ndetb + ib` of `addrs[ne]` (op_o0.py:97-105): the address of string `strsa[ia] + (strsb[ib] << norb)` among the
strings of `2*norb` orbitals with `nelec` electrons. PySCF's `cistring.strs2addr` (external) is the position in the ascending list. -/
def spAddr (norb nelec na nb ia ib : Nat) : Nat :=
  (strs (2 * norb) nelec).idxOf ((strs norb na).getD ia 0 + (strs norb nb).getD ib 0 * 2 ^ norb)

/-- `addrs[ne]` (op_o0.py:105), row-major. -/
def addrsNe (norb nelec : Nat) (ne : Nat × Nat) : List Nat :=
  (List.range ((strs norb ne.1).length * (strs norb ne.2).length)).map fun k =>
    spAddr norb nelec ne.1 ne.2 (k / (strs norb ne.2).length) (k % (strs norb ne.2).length)

/-- The closure data of `civec_spinless_repr_generator` (op_o0.py:90-109). -/
structure Tables where
  /-- `norb` -/
  norb : Nat
  /-- `nelec` -/
  nelec : Nat
  /-- the keys of `addrs`: `set (nelec_r)` -/
  keys : List (Nat × Nat)

/-- `civec_spinless_repr_generator` (op_o0.py:90-109); `none` is the exception raised for different numbers of electrons, or the
IndexError for no states at all. -/
def tables (norb : Nat) (nelecR : List (Nat × Nat)) : Option Tables :=
  match nelecR with
  | [] => none
  | ne :: rest =>
    if rest.all (fun x => x.1 + x.2 == ne.1 + ne.2) then some ⟨norb, ne.1 + ne.2, ne :: rest⟩ else none

/-- `ss2spinless (ci0, ne)` (op_o0.py:110-125); `none` is a KeyError. The CI vector is a function of two addresses, the result of one. -/
def ss2spinless [Ring K] (T : Tables) (ci0 : Nat → Nat → K) (ne : Nat × Nat) : Option (Nat → K) :=
  if ne ∈ T.keys then
    let ad := addrsNe T.norb T.nelec ne
    let ndetb := (strs T.norb ne.2).length
    let ci1 : Nat → K := fun x => if x ∈ ad then ci0 (ad.idxOf x / ndetb) (ad.idxOf x % ndetb) else 0
    some (if (ne.1 * ne.2) % 2 ≠ 0 then fun x => ci1 x * -1 else ci1)
  else none

/-- `spinless2ss (ci2, ne)` (op_o0.py:126-132); `none` is a KeyError. -/
def spinless2ss [Ring K] (T : Tables) (ci2 : Nat → K) (ne : Nat × Nat) : Option (Nat → Nat → K) :=
  if ne ∈ T.keys then
    let ad := addrsNe T.norb T.nelec ne
    let ndetb := (strs T.norb ne.2).length
    let ci3 : Nat → Nat → K := fun ia ib => ci2 (ad.getD (ia * ndetb + ib) 0)
    some (if (ne.1 * ne.2) % 2 ≠ 0 then fun ia ib => ci3 ia ib * -1 else ci3)
  else none

/-- `contract_h` of `contract_ham_ci` (op_o0.py:640-652): `hre` and `him` are the real and imaginary parts of the Hamiltonian acting
on a vector (external PySCF kernels), `i` is `1j`, `soc` says whether `h1_im` is not None. -/
def contractH [Ring K] (hre him : (Nat → K) → Nat → K) (i h0 : K) (soc : Bool) (c : Nat → K) : Nat → K :=
  let contractHRe (c : Nat → K) : Nat → K := fun x => hre c x + h0 * c x
  if soc then fun x => (contractHRe c x + i * him c x) + h0 * c x else contractHRe c

/-- The conversion functions of `contract_ham_ci` (op_o0.py:624-627): both the ket's and the bra's are built from the ket's electron
numbers. -/
def socTables (norb : Nat) (nelecKet _nelecBra : List (Nat × Nat)) : Option (Tables × Tables) := do
  let k ← tables norb nelecKet
  let b ← tables norb nelecKet
  return (k, b)

/-- The entry of one rootspace in the list returned by `dotter` with `skip` (op_o0.py:350-353, 356). -/
def dotOneSkip {V : Type} [AddCommMonoid K] [Mul K] (prods : List (List (Frag K) × Product K))
    (conv : V → Nat × Nat → Nat → Nat → K) (spinless : Bool) (ket : V) (nelecKet : Nat × Nat) (filt : Option (Nat × Nat))
    (skip : Nat → Bool) (x : List (Frag K) × Product K) : Option (Nd K) :=
  if dropped prods spinless nelecKet filt x.1 x.2.nelec then some ⟨[x.2.nprods], fun _ => 0⟩
  else x.2.dotter x.1 (conv ket x.2.nelec) x.2.nelec (some skip)

/-- Memory needed by `op_o0` according to `memcheck` (op_o0.py:30-47), in bytes and without the safety factor. `sizes` is the
memory of the product vectors (the last summand). -/
def memcheckBytes (ncas : Nat) (nelecs : List (Nat × Nat)) (soc : Bool) (sizes : Nat) : Nat :=
  let ndetSpinfree := (nelecs.map fun n => ncas.choose n.1 * ncas.choose n.2).foldl max 0
  let nbytesPerSfvec := ndetSpinfree * 8
  (if soc then 2 * nbytesPerSfvec else 2 * nbytesPerSfvec) + sizes

end Verif.Spinless
