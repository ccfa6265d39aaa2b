import Verif.Model.CplxCi
/-!
# Model of the density matrices of complex CI vectors
(/repo/lib/pbclas/pbc_fci_rdms.c, /repo/my_pyscf/pbc/fci/rdm_helper.py, /repo/my_pyscf/pbc/fci/direct_spin1_cplx.py)

* Numbers are exact. Arrays, link tables and schedules as in Model/CplxCi; a schedule is used for the single `omp for` loop over the spin-up
  strings (`Sched.order 0` and so on).
* The branch `PARTICLESYM` ("I didn't test this yet!"), which no caller selects, is not modelled. The entries with sign 0 that pad a link
  table are left out of the tables.
-/
namespace Verif.CplxRdm
open Verif.FciRdm Verif.HalfOp Verif.CplxCi

/-- `f[x] = v`. -/
def setAt (f : Flat) (x : Nat) (v : ℂ) : Flat := fun y => if y = x then v else f y

/-- `for (j = 0; j < d; j++) for (k = 0; k < j; k++) m[k*d+j] = conj (m[j*d+k]);` -/
noncomputable def fillHerm (d : Nat) (m : Flat) : Flat :=
  (List.range d).foldl (fun m j => (List.range j).foldl (fun m k => setAt m (k * d + j) (star (m (j * d + k)))) m) m

/-- pbc_fci_rdms.c:35-85 `FCImake_rdm1a_cplx`. -/
noncomputable def rdm1a (ci0 : Flat) (norb na nb : Nat) (la : Tab) : Flat :=
  fillHerm norb ((List.range na).foldl (fun m str0 => (la str0).foldl (fun m l =>
    if l.a ≥ l.i then (List.range nb).foldl (fun m k =>
      addAt m (l.a * norb + l.i) (if l.sign > 0 then star (ci0 (str0 * nb + k)) * ci0 (l.addr * nb + k) else
        -(star (ci0 (str0 * nb + k)) * ci0 (l.addr * nb + k)))) m
    else m) m) (fun _ => 0))

/-- pbc_fci_rdms.c:88-135 `FCImake_rdm1b_cplx`. -/
noncomputable def rdm1b (ci0 : Flat) (norb na nb : Nat) (lb : Tab) : Flat :=
  fillHerm norb ((List.range na).foldl (fun m str0 => (List.range nb).foldl (fun m k => (lb k).foldl (fun m l =>
    if l.a ≥ l.i then
      addAt m (l.a * norb + l.i) (if l.sign > 0 then ci0 (str0 * nb + l.addr) * star (ci0 (str0 * nb + k)) else
        -(ci0 (str0 * nb + l.addr) * star (ci0 (str0 * nb + k))))
    else m) m) m) (fun _ => 0))

/-- pbc_fci_rdms.c:141-160 `_transpose_jikl_cplx`. -/
def transposeJikl (norb : Nat) (tmp : Flat) : Flat := fun x =>
  let nn := norb * norb
  tmp ((x / nn % norb * norb + x / nn / norb) * nn + x % nn)

/-- pbc_fci_rdms.c:294-330 `FCIrdm2_a_t1ci_cplx`, called with an array of zeros. -/
noncomputable def t1ciA (ci0 : Flat) (bcount stra strb norb nstrb : Nat) (la : Tab) : Flat × ℝ :=
  (la stra).foldl (fun st l => (List.range bcount).foldl (fun (st : Flat × ℝ) k =>
    let p := ci0 (strb + l.addr * nstrb + k)
    (addAt st.1 (l.i * norb + l.a + k * (norb * norb)) (if l.sign > 0 then p else -p), st.2 + (star p * p).re)) st) (fun _ => 0, 0)

/-- pbc_fci_rdms.c:333-361 `FCIrdm2_b_t1ci_cplx`, called with an array of zeros. -/
noncomputable def t1ciB (ci0 : Flat) (bcount stra strb norb nstrb : Nat) (lb : Tab) : Flat × ℝ :=
  (List.range bcount).foldl (fun st str0 => (lb (strb + str0)).foldl (fun (st : Flat × ℝ) l =>
    let p := ci0 (stra * nstrb + l.addr)
    (addAt st.1 (str0 * (norb * norb) + (l.i * norb + l.a)) ((l.sign : ℂ) * p), st.2 + (star p * p).re)) st) (fun _ => 0, 0)

/-- `zgemv ('N', nn, bcount, 1, buf, nn, v, 1, 1, y, 1)` (BLAS, external). -/
noncomputable def zgemv (nn bcount : Nat) (buf v y : Flat) : Flat := fun m =>
  if m < nn then y m + ∑ k ∈ Finset.range bcount, buf (k * nn + m) * v k else y m

/-- `zherk ('U', 'N', nn, bcount, 1, buf, nn, 1, c, nn)` (BLAS, external): the upper triangle of `c += buf buf^H`, by columns. -/
noncomputable def zherk (nn bcount : Nat) (buf c : Flat) : Flat := fun x =>
  if x % nn ≤ x / nn ∧ x / nn < nn then c x + ∑ k ∈ Finset.range bcount, buf (k * nn + x % nn) * star (buf (k * nn + x / nn)) else c x

/-- `zgemm ('N', 'C', nn, nn, bcount, 1, a, nn, b, nn, 1, c, nn)` (BLAS, external): `c += a b^H`, by columns. -/
noncomputable def zgemmNC (nn bcount : Nat) (a b c : Flat) : Flat := fun x =>
  if x / nn < nn then c x + ∑ k ∈ Finset.range bcount, a (k * nn + x % nn) * star (b (k * nn + x / nn)) else c x

/-- The three kernels. -/
inductive Kern | a | b | ab
deriving DecidableEq

/-- pbc_fci_rdms.c:369-421 `FCIrdm12kern_a_cplx`, 429-474 `FCIrdm12kern_b_cplx`, 482-510 `FCItdm12kern_ab_cplx`: `(rdm1, rdm2)` after the
call, for `symm = BRAKETSYM` or the default. -/
noncomputable def kern (thr : ℝ) (κ : Kern) (braketsym : Bool) (bra ket : Flat) (norb nb : Nat) (la lb : Tab) (bcount stra strb : Nat)
    (dm : Flat × Flat) : Flat × Flat :=
  let nn := norb * norb
  match κ with
  | .a =>
    let t := t1ciA ket bcount stra strb norb nb la
    if t.2 > thr then
      (zgemv nn bcount t.1 (fun kk => star (bra (stra * nb + strb + kk))) dm.1,
        if braketsym then zherk nn bcount t.1 dm.2 else zgemmNC nn bcount t.1 t.1 dm.2)
    else dm
  | .b =>
    let t := t1ciB ket bcount stra strb norb nb lb
    if t.2 > thr then
      (zgemv nn bcount t.1 (fun kk => star (bra (stra * nb + strb + kk))) dm.1,
        if braketsym then zherk nn bcount t.1 dm.2 else zgemmNC nn bcount t.1 t.1 dm.2)
    else dm
  | .ab =>
    let ta := t1ciA bra bcount stra strb norb nb la
    if ta.2 < thr then dm else
    let tb := t1ciB ket bcount stra strb norb nb lb
    if tb.2 < thr then dm else
    (dm.1, zgemmNC nn bcount tb.1 ta.1 dm.2)

/-- pbc_fci_rdms.c:166-252 `FCIrdm12_drv_cplx`. -/
noncomputable def drv (thr : ℝ) (κ : Kern) (braketsym : Bool) (bra ket : Flat) (norb na nb : Nat) (la lb : Tab) (S : Sched) : Flat × Flat :=
  let nn := norb * norb
  let pdm := (S.order 0).foldl (fun (p : Nat → Flat × Flat) strk => Function.update p (S.tid 0 strk)
    ((blocks nb 96).foldl (fun dm ib => kern thr κ braketsym bra ket norb nb la lb (min 96 (nb - ib)) strk ib dm) (p (S.tid 0 strk))))
    (fun _ => (fun _ => 0, fun _ => 0))
  let dm := (S.crit 0).foldl (fun (dm : Flat × Flat) t =>
    ((List.range nn).foldl (fun m i => addAt m i ((pdm t).1 i)) dm.1, (List.range (nn * nn)).foldl (fun m i => addAt m i ((pdm t).2 i)) dm.2))
    (fun _ => 0, fun _ => 0)
  if braketsym then (fillHerm norb dm.1, transposeJikl norb (fillHerm nn dm.2)) else (dm.1, transposeJikl norb dm.2)

/-- Arrays with two and four indices in row-major order. -/
def of2 (norb : Nat) (f : Flat) : M2 ℂ := fun p q => f (p * norb + q)
def of4 (norb : Nat) (f : Flat) : M4 ℂ := fun p q r u => f ((p * norb + q) * (norb * norb) + (r * norb + u))

/-- `x.conj ().T`. -/
noncomputable def conjT (m : M2 ℂ) : M2 ℂ := fun p q => star (m q p)

/-- rdm_helper.py:20-26 `reorder_rdm`: the new `dm2`. -/
noncomputable def reorderRdm (norb : Nat) (dm1 : M2 ℂ) (dm2 : M4 ℂ) : M4 ℂ :=
  (List.range norb).foldl (fun d r p q r' u => if q = r ∧ r' = r then d p q r' u - conjT dm1 p u else d p q r' u) dm2

/-- rdm_helper.py:28-51 `make_rdm1_spin1`; `down` selects the routine. -/
noncomputable def makeRdm1Spin1 (down : Bool) (ci : Arr ℂ) (norb na nb : Nat) (la lb : Tab) : M2 ℂ :=
  conjT (of2 norb (if down then rdm1b (toFlat nb ci) norb na nb lb else rdm1a (toFlat nb ci) norb na nb la))

/-- rdm_helper.py:53-105 `make_rdm12_spin1`. -/
noncomputable def makeRdm12Spin1 (thr : ℝ) (κ : Kern) (symm : Bool) (ci : Arr ℂ) (norb na nb : Nat) (la lb : Tab) (S : Sched) : M2 ℂ × M4 ℂ :=
  let r := drv thr κ symm (toFlat nb ci) (toFlat nb ci) norb na nb la lb S
  (conjT (of2 norb r.1), of4 norb r.2)

/-- direct_spin1_cplx.py:273-282 `make_rdm1s`. -/
noncomputable def makeRdm1s (ci : Arr ℂ) (norb na nb : Nat) (la lb : Tab) : M2 ℂ × M2 ℂ :=
  (makeRdm1Spin1 false ci norb na nb la lb, makeRdm1Spin1 true ci norb na nb la lb)

/-- direct_spin1_cplx.py:284-290 `make_rdm1`. -/
noncomputable def makeRdm1 (ci : Arr ℂ) (norb na nb : Nat) (la lb : Tab) : M2 ℂ :=
  let r := makeRdm1s ci norb na nb la lb
  conjT fun p q => r.1 p q + r.2 p q

/-- direct_spin1_cplx.py:292-306 `make_rdm12s`; `S κ` is the schedule of the call for the kernel `κ`. -/
noncomputable def makeRdm12s (thr : ℝ) (ci : Arr ℂ) (norb na nb : Nat) (la lb : Tab) (S : Kern → Sched) (reorder : Bool) :
    (M2 ℂ × M2 ℂ) × (M4 ℂ × M4 ℂ × M4 ℂ) :=
  let a := makeRdm12Spin1 thr .a true ci norb na nb la lb (S .a)
  let b := makeRdm12Spin1 thr .b true ci norb na nb la lb (S .b)
  let ab := makeRdm12Spin1 thr .ab false ci norb na nb la lb (S .ab)
  let aa := if reorder then reorderRdm norb a.1 a.2 else a.2
  let bb := if reorder then reorderRdm norb b.1 b.2 else b.2
  ((fun p q => a.1 q p, fun p q => b.1 q p), (aa, ab.2, bb))

/-- direct_spin1_cplx.py:308-317 `make_rdm12`. -/
noncomputable def makeRdm12 (thr : ℝ) (ci : Arr ℂ) (norb na nb : Nat) (la lb : Tab) (S : Kern → Sched) (reorder : Bool) : M2 ℂ × M4 ℂ :=
  let r := makeRdm12s thr ci norb na nb la lb S reorder
  (conjT fun p q => r.1.1 p q + r.1.2 p q, fun p q u s => r.2.1 p q u s + r.2.2.2 p q u s + r.2.2.1 p q u s + r.2.2.1 u s p q)

/-- rdm_helper.py:107-145 `make_rdm1s_py`. -/
noncomputable def makeRdm1sPy (ci : Arr ℂ) (na nb : Nat) (la lb : Tab) : M2 ℂ × M2 ℂ :=
  ((List.range na).foldl (fun m a0 => (la a0).foldl (fun (m : M2 ℂ) l p i =>
      if p = l.a ∧ i = l.i then m p i + (l.sign : ℂ) * ∑ j ∈ Finset.range nb, star (ci a0 j) * ci l.addr j else m p i) m) (fun _ _ => 0),
   (List.range nb).foldl (fun m b0 => (lb b0).foldl (fun (m : M2 ℂ) l p i =>
      if p = l.a ∧ i = l.i then m p i + (l.sign : ℂ) * ∑ j ∈ Finset.range na, star (ci j b0) * ci j l.addr else m p i) m) (fun _ _ => 0))

/-- direct_spin1_cplx.py:326-332 `make_rdm1_py`. -/
noncomputable def makeRdm1Py (ci : Arr ℂ) (na nb : Nat) (la lb : Tab) : M2 ℂ :=
  let r := makeRdm1sPy ci na nb la lb
  conjT fun p q => r.1 p q + r.2 p q

/-- rdm_helper.py:176-180, 207-211 and 187-191: the array `t1[q,p,B]` of one spin-up string, and of one spin-down string. -/
noncomputable def t1Py (row : List Lk) (get : Nat → Nat → ℂ) : Nat → Nat → Nat → ℂ :=
  row.foldl (fun t l q p B => if q = l.i ∧ p = l.a then t q p B + (l.sign : ℂ) * get l.addr B else t q p B) (fun _ _ _ => 0)

/-- rdm_helper.py:147-227 `make_rdm12s_py`: the caller's vector after the call, which the first line divides by its norm in place, and the
density matrices. `nrm` is `np.linalg.norm (fcivec)`. -/
noncomputable def makeRdm12sPy (nrm : ℂ) (ci : Arr ℂ) (norb na nb : Nat) (la lb : Tab) (reorder : Bool) :
    Arr ℂ × (M2 ℂ × M2 ℂ) × (M4 ℂ × M4 ℂ × M4 ℂ) :=
  let c : Arr ℂ := fun i j => ci i j / nrm
  let aa := (List.range na).foldl (fun (d : M2 ℂ × M4 ℂ) ia =>
    let t := t1Py (la ia) fun x B => c x B
    (fun p q => d.1 p q + ∑ B ∈ Finset.range nb, star (c ia B) * t q p B,
     fun p q s r => d.2 p q s r + ∑ B ∈ Finset.range nb, star (t q p B) * t s r B)) (fun _ _ => 0, fun _ _ _ _ => 0)
  let bb := (List.range nb).foldl (fun (d : M2 ℂ × M4 ℂ) ib =>
    let t := t1Py (lb ib) fun x B => c B x
    (fun p q => d.1 p q + ∑ B ∈ Finset.range na, star (c B ib) * t q p B,
     fun p q s r => d.2 p q s r + ∑ B ∈ Finset.range na, star (t q p B) * t s r B)) (fun _ _ => 0, fun _ _ _ _ => 0)
  let ab := (List.range na).foldl (fun (d : M4 ℂ) ia =>
    let t := t1Py (la ia) fun x B => c x B
    (List.range nb).foldl (fun d ib => if star (c ia ib) = 0 then d else
      (lb ib).foldl (fun d l x y s r => if s = l.i ∧ r = l.a then d x y s r + star (c ia ib) * (l.sign : ℂ) * t x y l.addr else d x y s r) d) d)
    (fun _ _ _ _ => 0)
  let tr : M4 ℂ → M4 ℂ := fun m w x y z => star (m w y x z)
  let aa2 := if reorder then reorderRdm norb aa.1 (tr aa.2) else tr aa.2
  let bb2 := if reorder then reorderRdm norb bb.1 (tr bb.2) else tr bb.2
  (c, (aa.1, bb.1), (tr aa2, ab, tr bb2))

/-- direct_spin1_cplx.py:342-350 `make_rdm12_py`. -/
noncomputable def makeRdm12Py (nrm : ℂ) (ci : Arr ℂ) (norb na nb : Nat) (la lb : Tab) (reorder : Bool) : M2 ℂ × M4 ℂ :=
  let r := (makeRdm12sPy nrm ci norb na nb la lb reorder).2
  (conjT fun p q => r.1.1 p q + r.1.2 p q, fun p q u s => r.2.1 p q u s + r.2.2.2 p q u s + r.2.2.1 p q u s + r.2.2.1 u s p q)

end Verif.CplxRdm
