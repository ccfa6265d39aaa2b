import Verif.Lemmas.OrthBasis
import Mathlib.Algebra.Star.BigOperators
import Mathlib.Tactic.Ring
import Mathlib.Algebra.BigOperators.Intervals
/-! # Lemmas about the change of basis -/
namespace Verif.OrthBasis
open Verif.Addr Verif.Spec.OrthBasis Finset

variable {K : Type}

theorem divmod1 {c b : Nat} (t : Nat) (h : c < b) : (t * b + c) / b = t := by
  rw [Nat.mul_comm, Nat.mul_add_div (by omega), Nat.div_eq_of_lt h, Nat.add_zero]

theorem divmod2 {c b : Nat} (t : Nat) (h : c < b) : (t * b + c) % b = c := by
  rw [Nat.mul_comm, Nat.mul_add_mod, Nat.mod_eq_of_lt h]

theorem sum_range_mul [AddCommMonoid K] (f : Nat → K) (a b : Nat) :
    ∑ n ∈ range (a * b), f n = ∑ t ∈ range a, ∑ c ∈ range b, f (t * b + c) := by
  induction a with
  | zero => simp
  | succ a ih => rw [Nat.succ_mul, sum_range_add, sum_range_succ, ih]

theorem setSlice_lt (arr : Nat → K) (i j : Nat) (v : Nat → K) {n : Nat} (h : n < i) : setSlice arr i j v n = arr n := by
  unfold setSlice; rw [if_neg]; omega

theorem setSlice_in (arr : Nat → K) (i d : Nat) (v : Nat → K) {n : Nat} (h : n < d) :
    setSlice arr i (i + d) v (i + n) = v n := by
  unfold setSlice; rw [if_pos (by omega), Nat.add_sub_cancel_left]

/-! ## scatter -/

theorem scatter_notMem (vals : Nat → K) (idx : List Nat) (c : Nat) (arr : Nat → K) {n : Nat} (h : n ∉ idx) :
    scatter vals c idx arr n = arr n := by
  induction idx generalizing c arr with
  | nil => rfl
  | cons x idx ih =>
    rw [List.mem_cons, not_or] at h
    simp only [scatter]
    rw [ih (c + 1) _ h.2, Function.update_of_ne h.1]

theorem scatter_get (vals : Nat → K) (idx : List Nat) (c : Nat) (arr : Nat → K) (hnd : idx.Nodup) {q : Nat}
    (h : q < idx.length) : scatter vals c idx arr idx[q] = vals (c + q) := by
  induction idx generalizing c arr q with
  | nil => simp at h
  | cons x idx ih =>
    rw [List.nodup_cons] at hnd
    simp only [scatter]
    cases q with
    | zero => simp only [List.getElem_cons_zero]; rw [scatter_notMem _ _ _ _ hnd.1]; simp
    | succ q =>
      simp only [List.getElem_cons_succ]
      rw [ih (c + 1) _ hnd.2 (by simpa using h)]; congr 1; omega

/-- a sequence of index assignments -/
def scatterAll : List (List Nat × (Nat → K)) → (Nat → K) → (Nat → K)
  | [], arr => arr
  | (idx, v) :: l, arr => scatterAll l (scatter v 0 idx arr)

theorem scatterAll_append (l1 l2 : List (List Nat × (Nat → K))) (arr : Nat → K) :
    scatterAll (l1 ++ l2) arr = scatterAll l2 (scatterAll l1 arr) := by
  induction l1 generalizing arr with
  | nil => rfl
  | cons x l1 ih => simp only [List.cons_append, scatterAll]; rw [ih]

theorem scatterAll_notMem (l : List (List Nat × (Nat → K))) (arr : Nat → K) {n : Nat}
    (h : n ∉ l.flatMap Prod.fst) : scatterAll l arr n = arr n := by
  induction l generalizing arr with
  | nil => rfl
  | cons x l ih =>
    rw [List.flatMap_cons, List.mem_append, not_or] at h
    simp only [scatterAll]
    rw [ih _ h.2, scatter_notMem _ _ _ _ h.1]

theorem scatterAll_get (l : List (List Nat × (Nat → K))) (arr : Nat → K) (hnd : (l.flatMap Prod.fst).Nodup)
    {k q : Nat} (hk : k < l.length) (hq : q < l[k].1.length) : scatterAll l arr (l[k].1[q]) = l[k].2 q := by
  induction l generalizing arr k with
  | nil => simp at hk
  | cons x l ih =>
    rw [List.flatMap_cons, List.nodup_append] at hnd
    obtain ⟨h1, h2, h3⟩ := hnd
    simp only [scatterAll]
    cases k with
    | zero =>
      simp only [List.getElem_cons_zero] at hq ⊢
      rw [scatterAll_notMem, scatter_get _ _ _ _ h1 hq, Nat.zero_add]
      intro h; exact h3 _ (List.getElem_mem hq) _ h rfl
    | succ k =>
      simp only [List.getElem_cons_succ] at hq ⊢
      exact ih _ h2 (by simpa using hk) hq

theorem sum_mirror [NonUnitalNonAssocSemiring K] (idx : List Nat) (hnd : idx.Nodup) (N : Nat) (hN : ∀ n ∈ idx, n < N)
    (f : Nat → K) : ∑ n ∈ range N, (if n ∈ idx then f n else 0) = ∑ q ∈ range idx.length, f (idx.getD q 0) := by
  rw [← sum_filter]
  symm
  apply sum_nbij (fun q => idx.getD q 0)
  · intro q hq
    rw [mem_range] at hq
    rw [List.getD_eq_getElem _ _ hq]
    exact mem_filter.mpr ⟨mem_range.mpr (hN _ (List.getElem_mem hq)), List.getElem_mem hq⟩
  · intro a ha b hb hab
    rw [coe_range, Set.mem_Iio] at ha hb
    simp only [List.getD_eq_getElem _ _ ha, List.getD_eq_getElem _ _ hb] at hab
    exact (List.Nodup.getElem_inj_iff hnd).mp hab
  · intro n hn
    obtain ⟨-, hn⟩ := mem_filter.mp hn
    obtain ⟨q, hq, rfl⟩ := List.getElem_of_mem hn
    exact ⟨q, by simpa using hq, List.getD_eq_getElem _ _ hq⟩
  · intro _ _; rfl

theorem sum_scatterAll [NonUnitalNonAssocSemiring K] [StarRing K] (l : List (List Nat × (Nat → K)))
    (hnd : (l.flatMap Prod.fst).Nodup) (N : Nat) (hN : ∀ n ∈ l.flatMap Prod.fst, n < N) (arr x : Nat → K) :
    ∑ n ∈ range N, star (scatterAll l arr n) * x n =
      ∑ n ∈ range N, (if n ∈ l.flatMap Prod.fst then 0 else star (arr n) * x n) +
      (l.map (fun p => ∑ q ∈ range p.1.length, star (p.2 q) * x (p.1.getD q 0))).sum := by
  induction l generalizing arr with
  | nil => simp [scatterAll]
  | cons p l ih =>
    rw [List.flatMap_cons, List.nodup_append] at hnd
    obtain ⟨h1, h2, h3⟩ := hnd
    simp only [scatterAll]
    rw [ih h2 (fun n hn => hN n (by rw [List.flatMap_cons]; exact List.mem_append_right _ hn)), List.map_cons,
      List.sum_cons, ← add_assoc]
    congr 1
    have e : ∀ n ∈ range N, (if n ∈ l.flatMap Prod.fst then 0 else star (scatter p.2 0 p.1 arr n) * x n) =
        (if n ∈ (p :: l).flatMap Prod.fst then 0 else star (arr n) * x n) +
        (if n ∈ p.1 then star (scatter p.2 0 p.1 arr n) * x n else 0) := by
      intro n _
      rw [List.flatMap_cons]
      by_cases hp : n ∈ p.1
      · have : n ∉ l.flatMap Prod.fst := fun h => h3 _ hp _ h rfl
        simp [hp, this]
      · rw [scatter_notMem _ _ _ _ hp]
        rw [if_neg hp, add_zero]
        have : n ∈ p.1 ++ l.flatMap Prod.fst ↔ n ∈ l.flatMap Prod.fst := by
          rw [List.mem_append]; exact ⟨fun h => h.resolve_left hp, .inr⟩
        simp only [this]
    rw [sum_congr rfl e, sum_add_distrib]
    congr 1
    rw [sum_mirror p.1 h1 N (fun n hn => hN n (by rw [List.flatMap_cons]; exact List.mem_append_left _ hn))
      (fun n => star (scatter p.2 0 p.1 arr n) * x n)]
    apply sum_congr rfl
    intro q hq
    rw [mem_range] at hq
    rw [List.getD_eq_getElem _ _ hq, scatter_get _ _ _ _ h1 hq, Nat.zero_add]

/-! ## addresses of blocks -/

theorem mem_prodIdx {nprods b : List Nat} (hb : ∀ r ∈ b, r < nprods.length) {addr : Nat} :
    addr ∈ prodIdx nprods b ↔ ∃ r ∈ b, ∃ c, InBlock nprods addr r c := by
  unfold prodIdx
  rw [List.mem_flatMap]
  constructor
  · rintro ⟨r, hr, h⟩
    rw [List.mem_range'_1, offs0_getD _ _ (hb r hr)] at h
    exact ⟨r, hr, addr - (nprods.take r).sum, hb r hr, by omega, by omega⟩
  · rintro ⟨r, hr, c, h1, h2, h3⟩
    refine ⟨r, hr, ?_⟩
    rw [List.mem_range'_1, offs0_getD _ _ h1]; omega

theorem prodIdx_nodup {nprods b : List Nat} (hb : ∀ r ∈ b, r < nprods.length) (hnd : b.Nodup) :
    (prodIdx nprods b).Nodup := by
  induction b with
  | nil => simp [prodIdx]
  | cons r b ih =>
    rw [List.nodup_cons] at hnd
    have hb' : ∀ r ∈ b, r < nprods.length := fun r hr => hb r (by simp [hr])
    rw [prodIdx_cons, List.nodup_append]
    refine ⟨List.nodup_range', ih hb' hnd.2, ?_⟩
    intro x hx y hy hxy
    subst hxy
    obtain ⟨r', hr', c, h⟩ := (mem_prodIdx hb').mp hy
    have hx' : x ∈ prodIdx nprods [r] := by simpa [prodIdx] using hx
    obtain ⟨r2, hr2, c2, h2⟩ := (mem_prodIdx (by intro a ha; exact hb a (by simp at ha; simp [ha]))).mp hx'
    have := (splitAddr_of h).symm.trans (splitAddr_of h2)
    simp at this hr2
    exact hnd.1 (by rw [← hr2, ← this.1]; exact hr')

theorem prodIdx_append (nprods b1 b2 : List Nat) : prodIdx nprods (b1 ++ b2) = prodIdx nprods b1 ++ prodIdx nprods b2 := by
  simp [prodIdx]

theorem prodIdx_flatten (nprods : List Nat) (bs : List (List Nat)) :
    bs.flatMap (prodIdx nprods) = prodIdx nprods bs.flatten := by
  induction bs with
  | nil => rfl
  | cons b bs ih => rw [List.flatMap_cons, ih, List.flatten_cons, prodIdx_append]

theorem prodIdx_lt {nprods b : List Nat} (hb : ∀ r ∈ b, r < nprods.length) {n : Nat} (h : n ∈ prodIdx nprods b) :
    n < nprods.sum := by
  obtain ⟨r, _, c, h⟩ := (mem_prodIdx hb).mp h
  exact inBlock_lt h

/-! ## one block -/

theorem block_adjoint [CommSemiring K] [StarRing K] (nprods : List Nat) (m : Man K) (b : List Nat)
    (hs : (b.map (fun r => nprods.getD r 0)).sum = m.rawSize nprods) (y x : Nat → K) :
    ∑ c ∈ range (m.ncol nprods), star (y c) * xT m (prodIdx nprods b) x c =
      ∑ q ∈ range (prodIdx nprods b).length, star (xC m y q) * x ((prodIdx nprods b).getD q 0) := by
  have hl := prodIdx_length nprods b
  rw [hs] at hl
  unfold xT xC Man.ncol
  cases m.xmat with
  | none => simp only [hl]
  | some cx =>
    obtain ⟨nc, X⟩ := cx
    simp only
    simp only [mul_sum]
    rw [sum_comm]
    apply sum_congr rfl; intro q _
    rw [star_sum, sum_mul]
    apply sum_congr rfl; intro c _
    rw [star_mul', star_star]; ring

/-! ## uncoupled basis -/

theorem matvecLoop_lt [NonUnitalNonAssocSemiring K] (nprods : List Nat) (raw : Nat → K) (l : List (Man K × List Nat))
    (off : Nat) (orth : Nat → K) {n : Nat} (h : n < off) : matvecLoop nprods raw off l orth n = orth n := by
  induction l generalizing off orth with
  | nil => rfl
  | cons p l ih => obtain ⟨m, b⟩ := p; simp only [matvecLoop]; rw [ih _ _ (by omega), setSlice_lt _ _ _ _ h]

/-- The list of assignments of `rmatvecLoop`. -/
def rops [NonUnitalNonAssocSemiring K] [Star K] (nprods : List Nat) (orth : Nat → K) :
    Nat → List (Man K × List Nat) → List (List Nat × (Nat → K))
  | _, [] => []
  | off, (m, b) :: l => (prodIdx nprods b, xC m (fun c => orth (off + c))) :: rops nprods orth (off + m.ncol nprods) l

theorem rmatvecLoop_eq [NonUnitalNonAssocSemiring K] [Star K] (nprods : List Nat) (orth : Nat → K)
    (l : List (Man K × List Nat)) (off : Nat) (raw : Nat → K) :
    rmatvecLoop nprods orth off l raw = scatterAll (rops nprods orth off l) raw := by
  induction l generalizing off raw with
  | nil => rfl
  | cons p l ih => obtain ⟨m, b⟩ := p; simp only [rmatvecLoop, rops, scatterAll]; rw [ih]

theorem rops_fst [NonUnitalNonAssocSemiring K] [Star K] (nprods : List Nat) (orth : Nat → K)
    (l : List (Man K × List Nat)) (off : Nat) :
    (rops nprods orth off l).flatMap Prod.fst = prodIdx nprods (l.flatMap Prod.snd) := by
  induction l generalizing off with
  | nil => rfl
  | cons p l ih =>
    obtain ⟨m, b⟩ := p
    simp only [rops, List.flatMap_cons]
    rw [ih, prodIdx_append]

theorem matvecLoop_sum [CommSemiring K] [StarRing K] (nprods : List Nat) (x y : Nat → K) (l : List (Man K × List Nat))
    (hs : ∀ p ∈ l, (p.2.map (fun r => nprods.getD r 0)).sum = p.1.rawSize nprods) (off : Nat) (orth : Nat → K) :
    ∑ n ∈ range (l.map (fun p => p.1.ncol nprods)).sum, star (y (off + n)) * matvecLoop nprods x off l orth (off + n) =
      ((rops nprods y off l).map (fun p => ∑ q ∈ range p.1.length, star (p.2 q) * x (p.1.getD q 0))).sum := by
  induction l generalizing off orth with
  | nil => simp [rops]
  | cons p l ih =>
    obtain ⟨m, b⟩ := p
    simp only [List.map_cons, List.sum_cons, matvecLoop, rops]
    rw [sum_range_add]
    congr 1
    · rw [← block_adjoint nprods m b (hs (m, b) (by simp))]
      apply sum_congr rfl
      intro c hc
      rw [mem_range] at hc
      rw [matvecLoop_lt _ _ _ _ _ (by omega), setSlice_in _ _ _ _ hc]
    · simp only [← Nat.add_assoc]
      exact ih (fun p hp => hs p (by simp [hp])) _ _

theorem manBlocks_snd (mans : List (Man K)) :
    (manBlocks mans).flatMap Prod.snd = mans.flatMap (fun m => m.mBlocks.flatten) := by
  unfold manBlocks
  induction mans with
  | nil => rfl
  | cons m mans ih =>
    simp only [List.flatMap_cons, List.flatMap_append]
    rw [ih]
    congr 1
    simp [List.flatMap_map, List.flatMap_id']

theorem adjoint_core [CommSemiring K] [StarRing K] (nprods : List Nat) (mans : List (Man K)) (h : ManOK nprods mans)
    (x y : Nat → K) :
    ∑ n ∈ range ((manBlocks mans).map (fun p => p.1.ncol nprods)).sum, star (y n) * matvec nprods mans x n =
      ∑ n ∈ range nprods.sum, star (rmatvec nprods mans y n) * x n := by
  have hf := rops_fst nprods y (manBlocks mans) 0
  rw [manBlocks_snd] at hf
  unfold rmatvec
  rw [rmatvecLoop_eq, sum_scatterAll, sum_eq_zero (s := range nprods.sum), zero_add]
  · have := matvecLoop_sum nprods x y (manBlocks mans) (by
      rintro ⟨m, b⟩ hp
      simp only [manBlocks, List.mem_flatMap, List.mem_map] at hp
      obtain ⟨m', hm, b', hb, e⟩ := hp
      cases e
      exact h.size m hm b hb) 0 (fun _ => 0)
    simp only [Nat.zero_add] at this
    exact this
  · intro n _; split <;> simp
  · rw [hf]; exact prodIdx_nodup h.mem h.nodup
  · rw [hf]; intro n hn; exact prodIdx_lt h.mem hn

/-- Product states already orthonormal: no `xmat`. -/
theorem matvecLoop_none [NonUnitalNonAssocSemiring K] [Star K] (nprods : List Nat) (R y : Nat → K)
    (l : List (Man K × List Nat)) (hx : ∀ p ∈ l, p.1.xmat = none)
    (hs : ∀ p ∈ l, (p.2.map (fun r => nprods.getD r 0)).sum = p.1.rawSize nprods) (off : Nat) (orth : Nat → K)
    (hR : ∀ k (hk : k < (rops nprods y off l).length) q (hq : q < (rops nprods y off l)[k].1.length),
      R ((rops nprods y off l)[k].1[q]) = (rops nprods y off l)[k].2 q)
    (n : Nat) (hn : n < (l.map (fun p => p.1.ncol nprods)).sum) :
    matvecLoop nprods R off l orth (off + n) = y (off + n) := by
  induction l generalizing off orth n with
  | nil => simp at hn
  | cons p l ih =>
    obtain ⟨m, b⟩ := p
    have hx0 : m.xmat = none := hx (m, b) (by simp)
    have hs0 : (b.map (fun r => nprods.getD r 0)).sum = m.rawSize nprods := hs (m, b) (by simp)
    simp only [matvecLoop]
    by_cases h : n < m.ncol nprods
    · rw [matvecLoop_lt _ _ _ _ _ (by omega), setSlice_in _ _ _ _ h]
      have hlen : n < (prodIdx nprods b).length := by
        rw [prodIdx_length, hs0]; simpa [Man.ncol, hx0] using h
      have := hR 0 (by simp [rops]) n (by simpa [rops] using hlen)
      simp only [rops, List.getElem_cons_zero] at this
      unfold xT
      rw [hx0]
      simp only
      rw [List.getD_eq_getElem _ _ hlen, this]
      unfold xC
      rw [hx0]
    · obtain ⟨d, rfl⟩ := Nat.exists_eq_add_of_le (Nat.le_of_not_lt h)
      rw [← Nat.add_assoc]
      refine ih (fun p hp => hx p (by simp [hp])) (fun p hp => hs p (by simp [hp])) _ _ ?_ d ?_
      · intro k hk q hq
        have := hR (k + 1) (by simpa [rops] using hk) q (by simpa [rops] using hq)
        simpa [rops] using this
      · simpa using hn

theorem matvec_rmatvec_core [NonUnitalNonAssocSemiring K] [Star K] (nprods : List Nat) (mans : List (Man K))
    (h : ManOK nprods mans) (hx : ∀ m ∈ mans, m.xmat = none) (y : Nat → K) (n : Nat)
    (hn : n < ((manBlocks mans).map (fun p => p.1.ncol nprods)).sum) :
    matvec nprods mans (rmatvec nprods mans y) n = y n := by
  have hmb : ∀ p ∈ manBlocks mans, p.1 ∈ mans ∧ p.2 ∈ p.1.mBlocks := by
    rintro ⟨m, b⟩ hp
    simp only [manBlocks, List.mem_flatMap, List.mem_map] at hp
    obtain ⟨m', hm, b', hb, e⟩ := hp
    cases e; exact ⟨hm, hb⟩
  have := matvecLoop_none nprods (rmatvec nprods mans y) y (manBlocks mans)
    (fun p hp => hx _ (hmb p hp).1) (fun p hp => h.size _ (hmb p hp).1 _ (hmb p hp).2) 0 (fun _ => 0) (by
      intro k hk q hq
      unfold rmatvec
      rw [rmatvecLoop_eq]
      apply scatterAll_get
      rw [rops_fst, manBlocks_snd]
      exact prodIdx_nodup h.mem h.nodup) n hn
  unfold matvec
  simpa using this

theorem rops_matvec_none [NonUnitalNonAssocSemiring K] [Star K] (nprods : List Nat) (x : Nat → K)
    (l : List (Man K × List Nat)) (hx : ∀ p ∈ l, p.1.xmat = none)
    (hs : ∀ p ∈ l, (p.2.map (fun r => nprods.getD r 0)).sum = p.1.rawSize nprods) (off : Nat) (orth : Nat → K)
    (y : Nat → K) (hy : ∀ n, off ≤ n → y n = matvecLoop nprods x off l orth n) :
    ∀ k (hk : k < (rops nprods y off l).length) q (hq : q < (rops nprods y off l)[k].1.length),
      (rops nprods y off l)[k].2 q = x ((rops nprods y off l)[k].1[q]) := by
  induction l generalizing off orth with
  | nil => intro k hk; simp [rops] at hk
  | cons p l ih =>
    obtain ⟨m, b⟩ := p
    have hx0 : m.xmat = none := hx (m, b) (by simp)
    have hs0 : (b.map (fun r => nprods.getD r 0)).sum = m.rawSize nprods := hs (m, b) (by simp)
    intro k hk q hq
    cases k with
    | zero =>
      simp only [rops, List.getElem_cons_zero] at hq ⊢
      have hq' : q < m.ncol nprods := by
        rw [prodIdx_length, hs0] at hq; simpa [Man.ncol, hx0] using hq
      have hxc : xC m (fun c => y (off + c)) q = y (off + q) := by unfold xC; rw [hx0]
      rw [hxc, hy _ (by omega)]
      simp only [matvecLoop]
      rw [matvecLoop_lt _ _ _ _ _ (by omega), setSlice_in _ _ _ _ hq']
      unfold xT
      rw [hx0]
      simp only
      rw [List.getD_eq_getElem _ _ hq]
    | succ k =>
      simp only [rops, List.getElem_cons_succ] at hq ⊢
      exact ih (fun p hp => hx p (by simp [hp])) (fun p hp => hs p (by simp [hp])) _ _
        (fun n hn => by rw [hy n (by omega)]; rfl) k (by simpa [rops] using hk) q hq

theorem rmatvec_matvec_core [NonUnitalNonAssocSemiring K] [Star K] (nprods : List Nat) (mans : List (Man K))
    (h : ManOK nprods mans) (hx : ∀ m ∈ mans, m.xmat = none)
    (hcov : ∀ r < nprods.length, r ∈ mans.flatMap (fun m => m.mBlocks.flatten)) (x : Nat → K) (n : Nat)
    (hn : n < nprods.sum) : rmatvec nprods mans (matvec nprods mans x) n = x n := by
  have hmb : ∀ p ∈ manBlocks mans, p.1 ∈ mans ∧ p.2 ∈ p.1.mBlocks := by
    rintro ⟨m, b⟩ hp
    simp only [manBlocks, List.mem_flatMap, List.mem_map] at hp
    obtain ⟨m', hm, b', hb, e⟩ := hp
    cases e; exact ⟨hm, hb⟩
  have hf := rops_fst nprods (matvec nprods mans x) (manBlocks mans) 0
  rw [manBlocks_snd] at hf
  have hmem : n ∈ (rops nprods (matvec nprods mans x) 0 (manBlocks mans)).flatMap Prod.fst := by
    rw [hf, mem_prodIdx h.mem]
    obtain ⟨r, c, hb⟩ := exists_inBlock hn
    exact ⟨r, hcov r hb.1, c, hb⟩
  obtain ⟨p, hp, hnp⟩ := List.mem_flatMap.mp hmem
  obtain ⟨k, hk, rfl⟩ := List.getElem_of_mem hp
  obtain ⟨q, hq, rfl⟩ := List.getElem_of_mem hnp
  unfold rmatvec
  rw [rmatvecLoop_eq, scatterAll_get _ _ (by rw [hf]; exact prodIdx_nodup h.mem h.nodup) hk hq]
  exact rops_matvec_none nprods x (manBlocks mans) (fun p hp => hx _ (hmb p hp).1)
    (fun p hp => h.size _ (hmb p hp).1 _ (hmb p hp).2) 0 (fun _ => 0) _ (fun n _ => rfl) k hk q hq

/-! ## spin-coupled basis -/

theorem scMatvecLoop_lt [NonUnitalNonAssocSemiring K] (nprods : List Nat) (raw : Nat → K) (l : List (Man K))
    (off : Nat) (orth : Nat → K) {n : Nat} (h : n < off) : scMatvecLoop nprods raw off l orth n = orth n := by
  induction l generalizing off orth with
  | nil => rfl
  | cons m l ih => simp only [scMatvecLoop]; rw [ih _ _ (by omega), setSlice_lt _ _ _ _ h]

/-- The assignments of `scScatter`. -/
def scOps [NonUnitalNonAssocSemiring K] [Star K] (nprods : List Nat) (m : Man K) (blk : Nat → Nat → K) :
    Nat → List (List Nat) → List (List Nat × (Nat → K))
  | _, [] => []
  | j, b :: l => (prodIdx nprods b, xC m (blk j)) :: scOps nprods m blk (j + 1) l

/-- The row contracted with `umat`. -/
def uRow [NonUnitalNonAssocSemiring K] (nprods : List Nat) (m : Man K) (orth : Nat → K) (off : Nat) (j c : Nat) : K :=
  ∑ t ∈ range m.nt, m.umat j t * orth (off + (t * m.ncol nprods + c))

/-- The assignments of `scRmatvecLoop`. -/
def scRops [NonUnitalNonAssocSemiring K] [Star K] (nprods : List Nat) (orth : Nat → K) :
    Nat → List (Man K) → List (List Nat × (Nat → K))
  | _, [] => []
  | off, m :: l => scOps nprods m (uRow nprods m orth off) 0 m.mBlocks ++ scRops nprods orth (off + m.nt * m.ncol nprods) l

theorem scScatter_eq [NonUnitalNonAssocSemiring K] [Star K] (nprods : List Nat) (m : Man K) (blk : Nat → Nat → K)
    (l : List (List Nat)) (j : Nat) (raw : Nat → K) :
    scScatter nprods m blk j l raw = scatterAll (scOps nprods m blk j l) raw := by
  induction l generalizing j raw with
  | nil => rfl
  | cons b l ih => simp only [scScatter, scOps, scatterAll]; rw [ih]

theorem scRmatvecLoop_eq [NonUnitalNonAssocSemiring K] [Star K] (nprods : List Nat) (orth : Nat → K)
    (l : List (Man K)) (off : Nat) (raw : Nat → K) :
    scRmatvecLoop nprods orth off l raw = scatterAll (scRops nprods orth off l) raw := by
  induction l generalizing off raw with
  | nil => rfl
  | cons m l ih =>
    simp only [scRmatvecLoop, scRops]
    rw [ih, scatterAll_append, scScatter_eq]
    rfl

theorem scOps_fst [NonUnitalNonAssocSemiring K] [Star K] (nprods : List Nat) (m : Man K) (blk : Nat → Nat → K)
    (l : List (List Nat)) (j : Nat) : (scOps nprods m blk j l).flatMap Prod.fst = prodIdx nprods l.flatten := by
  induction l generalizing j with
  | nil => rfl
  | cons b l ih => simp only [scOps, List.flatMap_cons]; rw [ih, List.flatten_cons, prodIdx_append]

theorem scRops_fst [NonUnitalNonAssocSemiring K] [Star K] (nprods : List Nat) (orth : Nat → K)
    (l : List (Man K)) (off : Nat) :
    (scRops nprods orth off l).flatMap Prod.fst = prodIdx nprods (l.flatMap (fun m => m.mBlocks.flatten)) := by
  induction l generalizing off with
  | nil => rfl
  | cons m l ih =>
    simp only [scRops, List.flatMap_append, List.flatMap_cons]
    rw [ih, scOps_fst, prodIdx_append]

theorem scOps_sum [NonUnitalNonAssocSemiring K] [Star K] (nprods : List Nat) (m : Man K) (blk : Nat → Nat → K)
    (l : List (List Nat)) (j : Nat) (g : List Nat → (Nat → K) → K) :
    ((scOps nprods m blk j l).map (fun p => g p.1 p.2)).sum =
      ∑ k ∈ range l.length, g (prodIdx nprods (l.getD k [])) (xC m (blk (j + k))) := by
  induction l generalizing j with
  | nil => simp [scOps]
  | cons b l ih =>
    simp only [scOps, List.map_cons, List.sum_cons, List.length_cons]
    rw [ih, sum_range_succ', add_comm]
    simp only [List.getD_cons_succ, List.getD_cons_zero, Nat.add_zero]
    congr 1
    apply sum_congr rfl; intro k _
    have : j + 1 + k = j + (k + 1) := by omega
    rw [this]

theorem man_adjoint [CommSemiring K] [StarRing K] (nprods : List Nat) (m : Man K)
    (hs : ∀ b ∈ m.mBlocks, (b.map (fun r => nprods.getD r 0)).sum = m.rawSize nprods)
    (hu : ∀ j t, star (m.umat j t) = m.umat j t) (x y : Nat → K) (off : Nat) :
    ∑ n ∈ range (m.nt * m.ncol nprods), star (y (off + n)) * uxRow nprods m x n =
      ((scOps nprods m (uRow nprods m y off) 0 m.mBlocks).map
        (fun p => ∑ q ∈ range p.1.length, star (p.2 q) * x (p.1.getD q 0))).sum := by
  rw [scOps_sum nprods m _ _ 0 (fun idx v => ∑ q ∈ range idx.length, star (v q) * x (idx.getD q 0)),
    sum_range_mul]
  have h1 : ∀ k ∈ range m.mBlocks.length,
      ∑ q ∈ range (prodIdx nprods (m.mBlocks.getD k [])).length,
        star (xC m (uRow nprods m y off (0 + k)) q) * x ((prodIdx nprods (m.mBlocks.getD k [])).getD q 0) =
      ∑ c ∈ range (m.ncol nprods), ∑ t ∈ range m.nt, star (y (off + (t * m.ncol nprods + c))) *
        (m.umat k t * xT m (prodIdx nprods (m.mBlocks.getD k [])) x c) := by
    intro k hk
    rw [mem_range] at hk
    rw [← block_adjoint nprods m _ (hs _ (by rw [List.getD_eq_getElem _ _ hk]; exact List.getElem_mem hk))]
    apply sum_congr rfl; intro c _
    unfold uRow
    rw [star_sum, sum_mul]
    apply sum_congr rfl; intro t _
    rw [star_mul', hu, Nat.zero_add]; ring
  rw [sum_congr rfl h1]
  have h2 : ∀ t ∈ range m.nt, ∀ c ∈ range (m.ncol nprods),
      star (y (off + (t * m.ncol nprods + c))) * uxRow nprods m x (t * m.ncol nprods + c) =
      ∑ k ∈ range m.mBlocks.length, star (y (off + (t * m.ncol nprods + c))) *
        (m.umat k t * xT m (prodIdx nprods (m.mBlocks.getD k [])) x c) := by
    intro t _ c hc
    rw [mem_range] at hc
    unfold uxRow
    rw [mul_sum]
    apply sum_congr rfl; intro k _
    rw [divmod1 t hc, divmod2 t hc]
  rw [sum_congr rfl fun t ht => sum_congr rfl fun c hc => h2 t ht c hc]
  rw [sum_congr rfl fun t _ => sum_comm, sum_comm]
  apply sum_congr rfl; intro k _
  rw [sum_comm]

theorem scMatvecLoop_sum [CommSemiring K] [StarRing K] (nprods : List Nat) (x y : Nat → K) (l : List (Man K))
    (hs : ∀ m ∈ l, ∀ b ∈ m.mBlocks, (b.map (fun r => nprods.getD r 0)).sum = m.rawSize nprods)
    (hu : ∀ m ∈ l, ∀ j t, star (m.umat j t) = m.umat j t) (off : Nat) (orth : Nat → K) :
    ∑ n ∈ range (l.map (fun m => m.nt * m.ncol nprods)).sum,
      star (y (off + n)) * scMatvecLoop nprods x off l orth (off + n) =
      ((scRops nprods y off l).map (fun p => ∑ q ∈ range p.1.length, star (p.2 q) * x (p.1.getD q 0))).sum := by
  induction l generalizing off orth with
  | nil => simp [scRops]
  | cons m l ih =>
    simp only [List.map_cons, List.sum_cons, scMatvecLoop, scRops, List.map_append, List.sum_append]
    rw [sum_range_add]
    congr 1
    · rw [← man_adjoint nprods m (hs m (by simp)) (hu m (by simp))]
      apply sum_congr rfl
      intro c hc
      rw [mem_range] at hc
      rw [scMatvecLoop_lt _ _ _ _ _ (by omega), setSlice_in _ _ _ _ hc]
    · simp only [← Nat.add_assoc]
      exact ih (fun p hp => hs p (by simp [hp])) (fun p hp => hu p (by simp [hp])) _ _

theorem scAdjoint_core [CommSemiring K] [StarRing K] (nprods : List Nat) (mans : List (Man K)) (h : ManOK nprods mans)
    (hu : ∀ m ∈ mans, ∀ j t, star (m.umat j t) = m.umat j t) (x y : Nat → K) :
    ∑ n ∈ range (mans.map (fun m => m.nt * m.ncol nprods)).sum, star (y n) * scMatvec nprods mans x n =
      ∑ n ∈ range nprods.sum, star (scRmatvec nprods mans y n) * x n := by
  have hf := scRops_fst nprods y mans 0
  unfold scRmatvec
  rw [scRmatvecLoop_eq, sum_scatterAll, sum_eq_zero (s := range nprods.sum), zero_add]
  · have := scMatvecLoop_sum nprods x y mans h.size hu 0 (fun _ => 0)
    simp only [Nat.zero_add] at this
    exact this
  · intro n _; split <;> simp
  · rw [hf]; exact prodIdx_nodup h.mem h.nodup
  · rw [hf]; intro n hn; exact prodIdx_lt h.mem hn

/-! ## change of multiplicity -/

theorem shiftLoop_lt [NonUnitalNonAssocSemiring K] (iarr : Nat → K) (l : List (ShiftMan K)) (i0 f0 : Nat)
    (farr : Nat → K) {n : Nat} (h : n < f0) : shiftLoop iarr i0 f0 l farr n = farr n := by
  induction l generalizing i0 f0 farr with
  | nil => rfl
  | cons m l ih =>
    simp only [shiftLoop]
    split
    · rw [ih _ _ _ (by omega), setSlice_lt _ _ _ _ h]
    · rw [ih _ _ _ h]

theorem shiftLoop_aligned [NonUnitalNonAssocSemiring K] (iarr : Nat → K) (l : List (ShiftMan K))
    (hl : ∀ m ∈ l, m.it * m.p = 0 ↔ m.ft * m.p = 0) (i0 f0 : Nat) (farr : Nat → K) (k : Nat) (m : ShiftMan K)
    (hk : l[k]? = some m) (t : Nat) (ht : t < m.ft) (x : Nat) (hx : x < m.p) :
    shiftLoop iarr i0 f0 l farr (f0 + ((l.take k).map (fun m => m.ft * m.p)).sum + (t * m.p + x)) =
      ∑ s ∈ range m.it, m.omat t s * iarr (i0 + ((l.take k).map (fun m => m.it * m.p)).sum + (s * m.p + x)) := by
  induction l generalizing i0 f0 farr k with
  | nil => simp at hk
  | cons m0 l ih =>
    have h0 := hl m0 (by simp)
    have ih := ih (fun m hm => hl m (by simp [hm]))
    simp only [shiftLoop]
    cases k with
    | zero =>
      simp only [List.getElem?_cons_zero, Option.some.injEq] at hk
      subst hk
      have hf : 0 < m0.ft * m0.p := Nat.mul_pos (by omega) (by omega)
      rw [if_pos (by omega)]
      have hlt : t * m0.p + x < m0.ft * m0.p := by
        calc t * m0.p + x < t * m0.p + m0.p := by omega
          _ = (t + 1) * m0.p := by ring
          _ ≤ m0.ft * m0.p := Nat.mul_le_mul_right _ ht
      simp only [List.take_zero, List.map_nil, List.sum_nil, Nat.add_zero]
      rw [shiftLoop_lt _ _ _ _ _ (by omega), setSlice_in _ _ _ _ hlt]
      unfold ShiftMan.call
      apply sum_congr rfl; intro s _
      rw [divmod1 t hx, divmod2 t hx]
    | succ k =>
      rw [List.getElem?_cons_succ] at hk
      simp only [List.take_succ_cons, List.map_cons, List.sum_cons, ← Nat.add_assoc]
      by_cases hz : m0.ft * m0.p = 0
      · have hz' := h0.mpr hz
        rw [if_neg (by omega), hz, hz']
        simpa only [← Nat.add_assoc, Nat.add_zero] using ih i0 f0 farr k hk
      · have hz' := mt h0.mp hz
        rw [if_pos (by omega)]
        simpa only [← Nat.add_assoc] using ih _ _ _ k hk

end Verif.OrthBasis
