import Mathlib.Algebra.Ring.Basic
import Mathlib.Algebra.Field.Basic
import Mathlib.Algebra.BigOperators.Group.List.Basic
import Mathlib.Logic.Function.Basic
/-!
# Model of the Fock-space unitary coupled-cluster kernels (/repo/lib/fsucc.c)

A determinant is the number whose bits are the occupations. `uint64_t` and `int` are unbounded natural numbers: the C
code shifts the `int` constant 1, so the model holds for `norb ≤ 30` only. `double` is a commutative ring `K`; arrays
are functions of the index. `order` is the order in which the threads execute the iterations of a parallel loop.
-/
namespace Verif.Fsucc

variable {K : Type}

/-- fsucc.c:86-95: `det |= (1<<idx[r])` with the nilpotent escape. -/
def detOf : List Nat → Nat → Option Nat
  | [], det => some det
  | x :: l, det => if det &&& (1 <<< x) ≠ 0 then none else detOf l (det ||| (1 <<< x))

/-- fsucc.c:97-101: `ndet`. -/
def ndet (norb mask : Nat) : Nat :=
  (List.range norb).foldl (fun n r => if mask &&& (1 <<< r) ≠ 0 then n >>> 1 else n) (1 <<< norb)

/-- fsucc.c:119-120: insert a zero bit at position `p`. -/
def insertZero (p d : Nat) : Nat := ((d >>> p) <<< (p + 1)) ||| (d &&& ((1 <<< p) - 1))

/-- fsucc.c:116-122: the determinant with the spectator string `d` and all bits of `mask` unset. -/
def expand (norb mask d : Nat) : Nat :=
  (List.range norb).foldl (fun d p => if mask &&& (1 <<< p) ≠ 0 then insertZero p d else d) d

/-- fsucc.c:138-140, 145-147: `for (q = x+1; q < norb; q++) sgnbit ^= (det & (1<<q))>>q`. -/
def signInner (norb x det : Nat) (sgnbit : Nat) : Nat :=
  (List.range' (x + 1) (norb - (x + 1))).foldl (fun s q => s ^^^ ((det &&& (1 <<< q)) >>> q)) sgnbit

/-- fsucc.c:137-142, 144-149: the loop over the operators, popping each from the determinant. -/
def signLoop (norb : Nat) : List Nat → Nat → Nat → Nat
  | [], _, sgnbit => sgnbit
  | x :: l, det, sgnbit => signLoop norb l (det ^^^ (1 <<< x)) (signInner norb x det sgnbit)

/-- fsucc.c:135-150: the sign of the excitation. -/
def sgnOf (norb : Nat) (aidx iidx : List Nat) (detIa detAi : Nat) : Int :=
  1 - 2 * (signLoop norb aidx detAi (signLoop norb iidx detIa 0) : Int)

/-- fsucc.c:38-47 `FSUCCmixdetu` with `upsi` and `psi` the same array; `amp = [c, s]`. -/
def mixdetu [CommRing K] (c s : K) (sgn : Int) (ia ai : Nat) (psi : Nat → K) : Nat → K :=
  let snamp1 := (sgn : K) * s
  let psiIa := psi ia
  let psi1 := Function.update psi ia (c * psiIa - snamp1 * psi ai)
  Function.update psi1 ai (snamp1 * psiIa + c * psi1 ai)

/-- fsucc.c:49-54 `FSUCCmixdetg`, `psi` and `hpsi` different arrays. -/
def mixdetg [CommRing K] (g : K) (psi : Nat → K) (sgn : Int) (ia ai : Nat) (hpsi : Nat → K) : Nat → K :=
  Function.update hpsi ai (hpsi ai + (sgn : K) * g * psi ia)

/-- fsucc.c:123-124: the two determinants of iteration `det`. -/
def pairOf (norb detI detA det : Nat) : Nat × Nat :=
  (expand norb (detI ||| detA) det ||| detI, expand norb (detI ||| detA) det ||| detA)

/-- fsucc.c:113-152: one iteration of the parallel loop. `cur` gives the array read by the zero test. -/
def iter [CommRing K] [DecidableEq K] (mixer : Int → Nat → Nat → (Nat → K) → (Nat → K)) (cur : (Nat → K) → (Nat → K))
    (norb : Nat) (aidx iidx : List Nat) (detI detA : Nat) (opsi : Nat → K) (det : Nat) : Nat → K :=
  let (ia, ai) := pairOf norb detI detA det
  if cur opsi ia = 0 ∧ cur opsi ai = 0 then opsi
  else mixer (sgnOf norb aidx iidx ia ai) ia ai opsi

/-- fsucc.c:56-157 `FSUCCcontract1`; the iterations are executed in the given order. -/
def contract1 [CommRing K] [DecidableEq K] (mixer : Int → Nat → Nat → (Nat → K) → (Nat → K))
    (cur : (Nat → K) → (Nat → K)) (norb : Nat) (aidx iidx : List Nat) (order : List Nat) (opsi : Nat → K) : Nat → K :=
  match detOf iidx 0 with
  | none => opsi
  | some detI =>
    match detOf aidx 0 with
    | none => opsi
    | some detA => order.foldl (iter mixer cur norb aidx iidx detI detA) opsi

/-- The number of iterations of the parallel loop (0 after an early return). -/
def iterations (norb : Nat) (aidx iidx : List Nat) : Nat :=
  match detOf iidx 0, detOf aidx 0 with
  | some detI, some detA => ndet norb (detI ||| detA)
  | _, _ => 0

/-- fsucc.c:159-182 `FSUCCcontract1u`; `c = cos (tamp)`, `s = sin (tamp)`. -/
def contract1u [CommRing K] [DecidableEq K] (norb : Nat) (aidx iidx : List Nat) (c s : K) (order : List Nat)
    (psi : Nat → K) : Nat → K := contract1 (mixdetu c s) id norb aidx iidx order psi

/-- fsucc.c:184-203 `FSUCCcontract1g`. -/
def contract1g [CommRing K] [DecidableEq K] (norb : Nat) (aidx iidx : List Nat) (g : K) (psi : Nat → K)
    (order : List Nat) (hpsi : Nat → K) : Nat → K := contract1 (mixdetg g psi) (fun _ => psi) norb aidx iidx order hpsi

/-- fsucc.c:205-241 `FSUCCprojai`; here there is no escape for repeated indices. -/
def projai [CommRing K] (norb : Nat) (aidx iidx : List Nat) (order : List Nat) (psi : Nat → K) : Nat → K :=
  let detI := iidx.foldl (fun d x => d ||| (1 <<< x)) 0
  let detA := aidx.foldl (fun d x => d ||| (1 <<< x)) 0
  let detIa := detI ||| detA
  order.foldl (fun psi det =>
    if det &&& detIa = detI then psi
    else if det &&& detIa = detA then psi
    else Function.update psi det 0) psi

/-- fsucc.c:280: `p = 0; q = pq_idx; while (p<q){ p++; q-=p; }`. `fuel` bounds the number of iterations. -/
def triLoop : Nat → Nat → Nat → Nat × Nat
  | 0, p, q => (p, q)
  | fuel + 1, p, q => if p < q then triLoop fuel (p + 1) (q - (p + 1)) else (p, q)

/-- fsucc.c:280: the pair unpacked from `pq_idx` (at most `pq_idx` iterations). -/
def unpackTri (pq : Nat) : Nat × Nat := triLoop pq 0 pq

/-- fsucc.c:268-299: the calls of `FSUCCcontract1g` made by `_fullhop_` in their order, each as
(`pidx`, `qidx`, index into `hop`). `ps`, `qs` are the entries set by the callers, `base` is `hop` minus the original
pointer, and `k = nelec - ielec`. -/
def fullhopCalls (norb : Nat) : Nat → List Nat → List Nat → Nat → List (List Nat × List Nat × Nat)
  | 0, _, _, _ => []
  | k + 1, ps, qs, base =>
    let npair := norb * (norb + 1) / 2
    let opstep := npair ^ k
    (List.range npair).flatMap fun pqIdx : Nat =>
      let (p, q) := unpackTri pqIdx
      (if p = q then [(p, q)] else [(p, q), (q, p)]).flatMap fun (x : Nat × Nat) =>
        (List.range 2).flatMap fun spin : Nat =>
          let ps1 := ps ++ [x.1 + spin * norb]
          let qs1 := qs ++ [x.2 + spin * norb]
          if 0 < k then fullhopCalls norb k ps1 qs1 (base + pqIdx * opstep)
          else [(ps1, qs1, base + pqIdx)]

/-- fsucc.c:246-299 `FSUCCfullhop`; the iterations of each call are executed in ascending order (see
`C36_schedule` for other orders). -/
def fullhop [CommRing K] [DecidableEq K] (norb nelec : Nat) (hop : Nat → K) (psi hpsi : Nat → K) : Nat → K :=
  (fullhopCalls norb nelec [] [] 0).foldl (fun h c =>
    contract1g (2 * norb) c.1 c.2.1 (hop c.2.2) psi (List.range (iterations (2 * norb) c.1 c.2.1)) h) hpsi

/-- fsucc.c:315-326: the diagonal part of `S^2`. -/
def s2diag [Field K] (norb : Nat) (psi : Nat → K) (idet : Nat) : K :=
  let na : Int := (List.range norb).foldl (fun n iorb => n + ((idet &&& (1 <<< iorb)) >>> iorb : Nat)) 0
  let nb : Int := (List.range' norb norb).foldl (fun n iorb => n + ((idet &&& (1 <<< iorb)) >>> iorb : Nat)) 0
  let sz : K := ((na - nb : Int) : K) / 2
  (sz * sz + ((na + nb : Int) : K) / 2) * psi idet

/-- fsucc.c:301-337 `FSUCCcontractS2`; as in `fullhop` the iterations are in ascending order. -/
def contractS2 [Field K] [DecidableEq K] (norb : Nat) (psi : Nat → K) : Nat → K :=
  ((List.range norb).flatMap fun p : Nat => (List.range norb).map fun q : Nat => (p, q)).foldl (fun s2psi pq =>
    contract1g (2 * norb) [pq.1 + norb, pq.2] [pq.2 + norb, pq.1] (-1) psi
      (List.range (iterations (2 * norb) [pq.1 + norb, pq.2] [pq.2 + norb, pq.1])) s2psi) (s2diag norb psi)

end Verif.Fsucc
