import Verif.Spec.CplxCi
import Verif.Lemmas.HalfOp2
/-!
# Lemmas: loops that add to arrays
-/
namespace Verif.CplxCi
open Verif.FciRdm Verif.HalfOp Verif.Spec.CplxCi

theorem sum_list_range {M : Type} [AddCommMonoid M] (n : Nat) (f : Nat → M) : ((List.range n).map f).sum = ∑ k ∈ Finset.range n, f k := by
  induction n with
  | zero => rfl
  | succ n ih => rw [List.range_succ, List.map_append, List.sum_append, ih, Finset.sum_range_succ]; simp

theorem list_sum_comm {α : Type} {M : Type} [AddCommMonoid M] (l : List α) (n : Nat) (f : α → Nat → M) :
    (l.map fun x => ∑ k ∈ Finset.range n, f x k).sum = ∑ k ∈ Finset.range n, (l.map fun x => f x k).sum := by
  induction l with
  | nil => simp
  | cons a l ih => simp only [List.map_cons, List.sum_cons, ih, Finset.sum_add_distrib]

theorem list_sum_add {α : Type} {M : Type} [AddCommMonoid M] (l : List α) (f g : α → M) :
    (l.map fun x => f x + g x).sum = (l.map f).sum + (l.map g).sum := by
  induction l with
  | nil => simp
  | cons a l ih => simp only [List.map_cons, List.sum_cons, ih]; exact add_add_add_comm _ _ _ _

theorem list_sum_mul {α : Type} {M : Type} [CommRing M] (l : List α) (c : M) (f : α → M) : (l.map fun x => c * f x).sum = c * (l.map f).sum := by
  induction l with
  | nil => simp
  | cons a l ih => simp only [List.map_cons, List.sum_cons, ih]; ring

theorem list_sum_ite {α : Type} {M : Type} [AddCommMonoid M] (l : List α) (p : Prop) [Decidable p] (f : α → M) :
    (l.map fun x => if p then f x else 0).sum = if p then (l.map f).sum else 0 := by
  split <;> simp

/-- A loop whose body adds to an array: the result is the sum of what the turns add. -/
theorem foldl_gen {α : Type} (l : List α) (g : Flat → α → Flat) (d : α → Flat) (h : ∀ c x y, g c x y = c y + d x y) (c : Flat) (y : Nat) :
    l.foldl g c y = c y + (l.map fun x => d x y).sum := by
  induction l generalizing c with
  | nil => simp
  | cons a l ih => rw [List.foldl_cons, ih, h, List.map_cons, List.sum_cons, add_assoc]

theorem addAt_val (f : Flat) (x : Nat) (v : ℂ) (y : Nat) : addAt f x v y = f y + if y = x then v else 0 := by
  unfold addAt; split <;> simp

/-- What `spread_a_t1_z` adds. -/
noncomputable def dA (t1 : Flat) (bcount stra norb nstrb : Nat) (la : Tab) : Flat := fun y =>
  ((la stra).map fun l => ∑ k ∈ Finset.range bcount, if y = l.addr * nstrb + k then
    (if 0 < l.sign then t1 (l.a * norb + l.i + k * (norb * norb)) else -t1 (l.a * norb + l.i + k * (norb * norb))) else 0).sum

/-- What `spread_b_t1_z` adds. -/
noncomputable def dB (t1 : Flat) (bcount stra strb norb nstrb : Nat) (lb : Tab) : Flat := fun y =>
  ∑ s ∈ Finset.range bcount, ((lb (strb + s)).map fun l => if y = stra * nstrb + l.addr then
    (l.sign : ℂ) * t1 (s * (norb * norb) + (l.a * norb + l.i)) else 0).sum

theorem spreadA_val (ci1 t1 : Flat) (bcount stra norb nstrb : Nat) (la : Tab) (y : Nat) :
    spreadA ci1 t1 bcount stra 0 norb nstrb la y = ci1 y + dA t1 bcount stra norb nstrb la y := by
  unfold spreadA dA
  rw [foldl_gen _ _ (fun l y => ∑ k ∈ Finset.range bcount, if y = l.addr * nstrb + k then
    (if 0 < l.sign then t1 (l.a * norb + l.i + k * (norb * norb)) else -t1 (l.a * norb + l.i + k * (norb * norb))) else 0)]
  intro c l y
  rw [foldl_gen _ _ (fun k y => if y = l.addr * nstrb + k then
    (if 0 < l.sign then t1 (l.a * norb + l.i + k * (norb * norb)) else -t1 (l.a * norb + l.i + k * (norb * norb))) else 0),
    sum_list_range]
  intro c k y
  rw [addAt_val, Nat.zero_add]

theorem spreadB_val (ci1 t1 : Flat) (bcount stra strb norb nstrb : Nat) (lb : Tab) (y : Nat) :
    spreadB ci1 t1 bcount stra strb norb nstrb lb y = ci1 y + dB t1 bcount stra strb norb nstrb lb y := by
  unfold spreadB dB
  rw [foldl_gen _ _ (fun s y => ((lb (strb + s)).map fun l => if y = stra * nstrb + l.addr then
    (l.sign : ℂ) * t1 (s * (norb * norb) + (l.a * norb + l.i)) else 0).sum), sum_list_range]
  intro c s y
  rw [foldl_gen _ _ (fun l y => if y = stra * nstrb + l.addr then (l.sign : ℂ) * t1 (s * (norb * norb) + (l.a * norb + l.i)) else 0)]
  intro c l y
  rw [addAt_val]

theorem axpy2d_val (out : Flat) (off : Nat) (inp : Flat) (count no ni y : Nat) :
    axpy2d out off inp count no ni y = out y + ∑ i ∈ Finset.range count, ∑ j ∈ Finset.range ni,
      if y = off + i * no + j then inp (i * ni + j) else 0 := by
  unfold axpy2d
  rw [foldl_gen _ _ (fun i y => ∑ j ∈ Finset.range ni, if y = off + i * no + j then inp (i * ni + j) else 0), sum_list_range]
  intro c i y
  rw [foldl_gen _ _ (fun j y => if y = off + i * no + j then inp (i * ni + j) else 0), sum_list_range]
  intro c j y
  rw [addAt_val]

/-- What the call for one row adds to `ci1` and to the buffer. -/
noncomputable def kB (thr : ℝ) (eri : Flat) (ciR ciI : Nat → ℝ) (bcount stra strb norb nb : Nat) (la lb : Tab) : Flat := fun y =>
  if (t1ciSf ciR bcount stra strb norb nb la lb).2 > thr ∨ (t1ciSf ciI bcount stra strb norb nb la lb).2 > thr then
    dB (zgemm eri (fun x => ⟨(t1ciSf ciR bcount stra strb norb nb la lb).1 x, (t1ciSf ciI bcount stra strb norb nb la lb).1 x⟩) (norb * norb))
      bcount stra strb norb nb lb y else 0

noncomputable def kA (thr : ℝ) (eri : Flat) (ciR ciI : Nat → ℝ) (bcountA ncol bcount stra strb norb nb : Nat) (la lb : Tab) : Flat := fun y =>
  if (t1ciSf ciR bcount stra strb norb nb la lb).2 > thr ∨ (t1ciSf ciI bcount stra strb norb nb la lb).2 > thr then
    dA (zgemm eri (fun x => ⟨(t1ciSf ciR bcount stra strb norb nb la lb).1 x, (t1ciSf ciI bcount stra strb norb nb la lb).1 x⟩) (norb * norb))
      bcountA stra norb ncol la y else 0

theorem kern_fst (thr : ℝ) (eri : Flat) (ciR ciI : Nat → ℝ) (ci1 buf : Flat) (bcountA ncol bcount stra strb norb nb : Nat) (la lb : Tab) (y : Nat) :
    (kern thr eri ciR ciI ci1 buf bcountA ncol bcount stra strb norb nb la lb).1 y =
      ci1 y + kB thr eri ciR ciI bcount stra strb norb nb la lb y := by
  unfold kern kB
  dsimp only
  split
  · exact spreadB_val ..
  · simp

theorem kern_snd (thr : ℝ) (eri : Flat) (ciR ciI : Nat → ℝ) (ci1 buf : Flat) (bcountA ncol bcount stra strb norb nb : Nat) (la lb : Tab) (y : Nat) :
    (kern thr eri ciR ciI ci1 buf bcountA ncol bcount stra strb norb nb la lb).2 y =
      buf y + kA thr eri ciR ciI bcountA ncol bcount stra strb norb nb la lb y := by
  unfold kern kA
  dsimp only
  split
  · exact spreadA_val ..
  · simp

/-- A loop that adds to a shared array and to one of several buffers. -/
theorem fold_bufs (l : List Nat) (f g : Nat → Flat) (tid : Nat → Nat) (step : Flat × (Nat → Flat) → Nat → Flat × (Nat → Flat))
    (h1 : ∀ st s y, (step st s).1 y = st.1 y + f s y)
    (h2 : ∀ st s t y, (step st s).2 t y = st.2 t y + if tid s = t then g s y else 0) (st : Flat × (Nat → Flat)) :
    (∀ y, (l.foldl step st).1 y = st.1 y + (l.map fun s => f s y).sum) ∧
    (∀ t y, (l.foldl step st).2 t y = st.2 t y + (l.map fun s => if tid s = t then g s y else 0).sum) := by
  induction l generalizing st with
  | nil => simp
  | cons a l ih =>
    obtain ⟨i1, i2⟩ := ih (step st a)
    refine ⟨fun y => ?_, fun t y => ?_⟩
    · rw [List.foldl_cons, i1, h1, List.map_cons, List.sum_cons, add_assoc]
    · rw [List.foldl_cons, i2, h2, List.map_cons, List.sum_cons, add_assoc]

theorem sum_threads {M : Type} [AddCommMonoid M] (l : List Nat) (T : Nat) (tid : Nat → Nat) (h : ∀ s, tid s < T) (g : Nat → M) :
    ∑ t ∈ Finset.range T, (l.map fun s => if tid s = t then g s else 0).sum = (l.map g).sum := by
  rw [← list_sum_comm]
  congr 1
  apply List.map_congr_left
  intro s _
  rw [Finset.sum_ite_eq, if_pos (Finset.mem_range.2 (h s))]

/-- One block adds, whatever the threads do, the contributions of all rows. -/
theorem block_val (thr : ℝ) (eri : Flat) (ciR ciI : Nat → ℝ) (norb na nb : Nat) (la lb : Tab) (S : Sched) (lo : Nat → Nat) (hS : Allowed lo na S)
    (cntA cntB : Nat → Nat) (blen : Nat) (ci1 : Flat) (ib y : Nat) :
    block thr eri ciR ciI norb na nb la lb S cntA cntB blen ci1 ib y = ci1 y +
      ((List.range' (lo ib) (na - lo ib)).map fun s => kB thr eri ciR ciI (cntB s) s ib norb nb la lb y +
        ∑ i ∈ Finset.range na, ∑ j ∈ Finset.range blen, if y = ib + i * nb + j then
          kA thr eri ciR ciI (cntA s) blen (cntB s) s ib norb nb la lb (i * blen + j) else 0).sum := by
  unfold block
  dsimp only
  obtain ⟨h1, h2⟩ := fold_bufs (S.order ib) (fun s => kB thr eri ciR ciI (cntB s) s ib norb nb la lb)
    (fun s => kA thr eri ciR ciI (cntA s) blen (cntB s) s ib norb nb la lb) (S.tid ib)
    (fun (st : Flat × (Nat → Flat)) strk =>
      ((kern thr eri ciR ciI st.1 (st.2 (S.tid ib strk)) (cntA strk) blen (cntB strk) strk ib norb nb la lb).1,
        Function.update st.2 (S.tid ib strk) (kern thr eri ciR ciI st.1 (st.2 (S.tid ib strk)) (cntA strk) blen (cntB strk) strk ib norb nb la lb).2))
    (fun st s y => kern_fst ..)
    (fun st s t y => by
      dsimp only
      by_cases h : S.tid ib s = t
      · subst h
        rw [Function.update_self, if_pos rfl]
        exact kern_snd ..
      · rw [Function.update_of_ne (Ne.symm h), if_neg h, add_zero]) (ci1, fun _ _ => 0)
  generalize (S.order ib).foldl _ _ = st at h1 h2 ⊢
  rw [foldl_gen _ _ (fun t y => ∑ i ∈ Finset.range na, ∑ j ∈ Finset.range blen, if y = ib + i * nb + j then st.2 t (i * blen + j) else 0)
    (fun c t y => axpy2d_val c ib (st.2 t) na nb blen y)]
  rw [h1, add_assoc]
  congr 1
  rw [list_sum_add, (((hS.order ib).map _).sum_eq).symm]
  congr 1
  rw [((hS.crit ib).map _).sum_eq, sum_list_range]
  rw [← (((hS.order ib).map fun s => ∑ i ∈ Finset.range na, ∑ j ∈ Finset.range blen, if y = ib + i * nb + j then
          kA thr eri ciR ciI (cntA s) blen (cntB s) s ib norb nb la lb (i * blen + j) else 0).sum_eq),
    ← sum_threads (S.order ib) S.threads (S.tid ib) (hS.tid ib)]
  refine Finset.sum_congr rfl fun t _ => ?_
  have hz : ∀ s, (if S.tid ib s = t then ∑ i ∈ Finset.range na, ∑ j ∈ Finset.range blen, (if y = ib + i * nb + j then
          kA thr eri ciR ciI (cntA s) blen (cntB s) s ib norb nb la lb (i * blen + j) else 0) else 0) =
      ∑ i ∈ Finset.range na, ∑ j ∈ Finset.range blen, (if y = ib + i * nb + j then
        (if S.tid ib s = t then kA thr eri ciR ciI (cntA s) blen (cntB s) s ib norb nb la lb (i * blen + j) else 0) else 0) := by
    intro s
    split
    · rfl
    · simp
  simp only [hz, list_sum_comm, list_sum_ite]
  refine Finset.sum_congr rfl fun i _ => Finset.sum_congr rfl fun j _ => ?_
  rw [h2]
  simp

/-- The loop over the blocks. -/
theorem foldl_blocks (bl : List Nat) (g : Flat → Nat → Flat) (d : Nat → Flat) (h : ∀ c ib y, g c ib y = c y + d ib y) (y : Nat) :
    bl.foldl g (fun _ => 0) y = (bl.map fun ib => d ib y).sum := by
  rw [foldl_gen _ _ d h, zero_add]

/-- The blocks cover the strings, each once. -/
theorem blocks_cover {M : Type} [AddCommMonoid M] {nb blk : Nat} (h : 0 < blk ∨ nb = 0) (g : Nat → M) :
    ((blocks nb blk).map fun ib => ∑ k ∈ Finset.range (min blk (nb - ib)), g (ib + k)).sum = ∑ b ∈ Finset.range nb, g b := by
  unfold blocks
  rw [List.map_map, sum_list_range]
  rcases h with h | h
  swap
  · subst h
    have : (0 + blk - 1) / blk = 0 := by
      rcases Nat.eq_zero_or_pos blk with h | h
      · subst h; rfl
      · exact Nat.div_eq_of_lt (by omega)
    rw [this]; rfl
  have key : ∀ T, ∑ t ∈ Finset.range T, ∑ k ∈ Finset.range (min blk (nb - t * blk)), g (t * blk + k) = ∑ b ∈ Finset.range (min nb (T * blk)), g b := by
    intro T
    induction T with
    | zero => simp
    | succ T ih =>
      rw [Finset.sum_range_succ, ih]
      rcases Nat.lt_or_ge (T * blk) nb with hlt | hge
      · have e : min nb ((T + 1) * blk) = min nb (T * blk) + min blk (nb - T * blk) := by rw [Nat.succ_mul]; omega
        rw [e, Finset.sum_range_add]
        congr 1
        rw [show min nb (T * blk) = T * blk by omega]
      · have e : min nb ((T + 1) * blk) = min nb (T * blk) := by rw [Nat.succ_mul]; omega
        rw [e, show min blk (nb - T * blk) = 0 by omega]
        simp
  have hT : min nb ((nb + blk - 1) / blk * blk) = nb := by
    have := Nat.div_add_mod (nb + blk - 1) blk
    have h2 := Nat.mod_lt (nb + blk - 1) h
    rw [Nat.mul_comm]
    omega
  have := key ((nb + blk - 1) / blk)
  rw [hT] at this
  exact this

theorem blocks_lt {nb blk ib : Nat} (h : ib ∈ blocks nb blk) : ib < nb := by
  unfold blocks at h
  obtain ⟨t, ht, rfl⟩ := List.mem_map.1 h
  have ht := List.mem_range.1 ht
  rcases Nat.eq_zero_or_pos blk with h0 | h0
  · subst h0; simp at ht
  have h1 := Nat.div_mul_le_self (nb + blk - 1) blk
  have h2 : (t + 1) * blk ≤ (nb + blk - 1) / blk * blk := Nat.mul_le_mul_right _ ht
  rw [Nat.succ_mul] at h2
  have : t * blk < nb := by omega
  exact this

theorem blkSize_pos {b : Int} {nb : Nat} : 0 < blkSize b nb ∨ nb = 0 := by
  unfold blkSize
  dsimp only
  split <;> split <;> omega

end Verif.CplxCi
