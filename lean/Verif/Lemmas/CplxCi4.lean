import Verif.Lemmas.CplxCi3
import Verif.Lemmas.HalfOp2
import Verif.Lemmas.FragTables
import Mathlib.Data.Complex.BigOperators
/-!
# Lemmas: the contraction of complex vectors as an operator
-/
namespace Verif.CplxCi
open Verif.FciRdm Verif.HalfOp Verif.Spec.CplxCi Verif.Spec.HalfOp Verif.Spec.Tdm Verif.Spec.FciRdm Verif.Fockspace

/-- The value of an entry of the result, for every block size and schedule. -/
theorem contract2es1_val {thr : ℝ} {n : Nat} {e : Nat × Nat} {la lb : Tab} (hla : LinkTable n e.1 la) (hlb : LinkTable n e.2 lb) (eri : M4 ℂ)
    {c : Arr ℂ} (hc : Resolved thr (strs n e.1).length (strs n e.2).length c) (b : Int) {S : Sched}
    (hS : Allowed (fun _ => 0) (strs n e.1).length S) {A B : Nat} (hA : A ∈ strs n e.1) (hB : B ∈ strs n e.2) :
    contract2es1 thr eri (toFlat (strs n e.2).length c) n (strs n e.1).length (strs n e.2).length la lb b S
      ((strs n e.1).idxOf A * (strs n e.2).length + (strs n e.2).idxOf B) = twoE n (fun _ _ p q r u => eri r u p q) (vec n e c) A B := by
  unfold contract2es1
  dsimp only
  rw [foldl_blocks _ _ _ (fun ci1 ib y => block_val thr _ _ _ n _ _ la lb S _ hS _ _ _ ci1 ib y)]
  refine (drive_val (links_good hla) (links_good hlb) eri hc blkSize_pos (fun _ => 0) (fun ib _ => min (blkSize b (strs n e.2).length) ((strs n e.2).length - ib))
    (fun ib _ => min (blkSize b (strs n e.2).length) ((strs n e.2).length - ib)) (fun _ _ => True) (fun _ _ => True)
    (fun ib s k _ hk => by simpa using hk) (fun ib s k _ hk => by simpa using hk) (fun _ _ => le_refl _) (fun _ _ => le_refl _) (fun _ _ _ _ => Nat.zero_le _)
    (idx_lt hA) (idx_lt hB)).trans ?_
  simp only [if_true]
  rw [half_down hla hlb eri c hA hB, half_up hla hlb eri c hA hB, both_halves]

/-- The value of an entry of the result of the routine for equal spins, before the transpose is added. -/
theorem contractSpin0_val {thr : ℝ} {n k : Nat} {la : Tab} (hla : LinkTable n k la) (eri : M4 ℂ)
    {c : Arr ℂ} (hc : Resolved thr (strs n k).length (strs n k).length c) (b : Int) {S : Sched}
    (hS : Allowed id (strs n k).length S) {A B : Nat} (hA : A < (strs n k).length) (hB : B < (strs n k).length) :
    contractSpin0 thr eri (toFlat (strs n k).length c) n (strs n k).length la b S (A * (strs n k).length + B) =
    (∑ b ∈ Finset.range (strs n k).length, if b ≤ A then ((la b).map fun l => if l.addr = B then
      (l.sign : ℂ) * ww eri n (strs n k).length la la (toFlat (strs n k).length c) A b l.a l.i else 0).sum else 0) +
    ∑ s ∈ Finset.range (strs n k).length, if B < s then ((la s).map fun l => if l.addr = A then
      (l.sign : ℂ) * ww eri n (strs n k).length la la (toFlat (strs n k).length c) s B l.a l.i else 0).sum else 0 := by
  unfold contractSpin0
  dsimp only
  rw [foldl_blocks _ _ _ (fun ci1 ib y => block_val thr _ _ _ n _ _ la la S _ hS _ _ _ ci1 ib y)]
  refine (drive_val (links_good hla) (links_good hla) eri hc blkSize_pos id
    (fun ib s => min (min (blkSize b (strs n k).length) ((strs n k).length - ib)) (s - ib))
    (fun ib s => min (min (blkSize b (strs n k).length) ((strs n k).length - ib)) (s + 1 - ib)) (fun s b => b ≤ s) (fun s b => b < s)
    (fun ib s k _ hk => by omega) (fun ib s k _ hk => by omega) (fun _ _ => by omega) (fun _ _ => by omega) (fun ib s k h => by show ib ≤ s; omega)
    hA hB)

/-- The intermediate values of a symmetric vector are symmetric. -/
theorem ww_symm {n k : Nat} {la : Tab} (hla : LinkTable n k la) (eri : M4 ℂ) {c : Arr ℂ} (hs : SpinSym n k c) {s b : Nat}
    (h1 : s < (strs n k).length) (h2 : b < (strs n k).length) (a i : Nat) :
    ww eri n (strs n k).length la la (toFlat (strs n k).length c) s b a i = ww eri n (strs n k).length la la (toFlat (strs n k).length c) b s a i := by
  unfold ww
  refine Finset.sum_congr rfl fun p _ => Finset.sum_congr rfl fun q _ => ?_
  congr 1
  unfold tt
  rw [add_comm]
  congr 1
  · congr 1
    refine List.map_congr_left fun l hl => ?_
    have h := (links_good hla b h2 l hl).2.2.1
    rw [toFlat_val h, toFlat_val h1, hs _ h1 _ h]
  · congr 1
    refine List.map_congr_left fun l hl => ?_
    have h := (links_good hla s h1 l hl).2.2.1
    rw [toFlat_val h2, toFlat_val h, hs _ h _ h2]

theorem spin0_val {thr : ℝ} {n k : Nat} {la : Tab} (hla : LinkTable n k la) (eri : M4 ℂ)
    {c : Arr ℂ} (hc : Resolved thr (strs n k).length (strs n k).length c) (hs : SpinSym n k c) (b : Int) {S : Sched}
    (hS : Allowed id (strs n k).length S) {A B : Nat} (hA : A ∈ strs n k) (hB : B ∈ strs n k) :
    contractSpin0 thr eri (toFlat (strs n k).length c) n (strs n k).length la b S ((strs n k).idxOf A * (strs n k).length + (strs n k).idxOf B) +
    contractSpin0 thr eri (toFlat (strs n k).length c) n (strs n k).length la b S ((strs n k).idxOf B * (strs n k).length + (strs n k).idxOf A) =
    twoE n (fun _ _ p q r u => eri r u p q) (vec n (k, k) c) A B := by
  rw [contractSpin0_val hla eri hc b hS (idx_lt hA) (idx_lt hB), contractSpin0_val hla eri hc b hS (idx_lt hB) (idx_lt hA),
    ← both_halves, ← half_down (e := (k, k)) hla hla eri c hA hB, ← half_up (e := (k, k)) hla hla eri c hA hB]
  have key : ∀ X Y : Nat, X < (strs n k).length → Y < (strs n k).length →
      (∑ b ∈ Finset.range (strs n k).length, if b ≤ X then ((la b).map fun l => if l.addr = Y then
        (l.sign : ℂ) * ww eri n (strs n k).length la la (toFlat (strs n k).length c) X b l.a l.i else 0).sum else 0) +
      (∑ s ∈ Finset.range (strs n k).length, if X < s then ((la s).map fun l => if l.addr = Y then
        (l.sign : ℂ) * ww eri n (strs n k).length la la (toFlat (strs n k).length c) s X l.a l.i else 0).sum else 0) =
      ∑ b ∈ Finset.range (strs n k).length, ((la b).map fun l => if l.addr = Y then
        (l.sign : ℂ) * ww eri n (strs n k).length la la (toFlat (strs n k).length c) X b l.a l.i else 0).sum := by
    intro X Y hX hY
    rw [← Finset.sum_add_distrib]
    refine Finset.sum_congr rfl fun s h => ?_
    have h := Finset.mem_range.1 h
    rcases Nat.lt_or_ge X s with h1 | h1
    · rw [if_neg (by omega), if_pos h1, zero_add]
      congr 1
      refine List.map_congr_left fun l _ => ?_
      rw [ww_symm hla eri hs h hX]
    · rw [if_pos h1, if_neg (by omega), add_zero]
  have kA := key _ _ (idx_lt hA) (idx_lt hB)
  have kB := key _ _ (idx_lt hB) (idx_lt hA)
  have kB' : (∑ b ∈ Finset.range (strs n k).length, ((la b).map fun l => if l.addr = (strs n k).idxOf A then
        (l.sign : ℂ) * ww eri n (strs n k).length la la (toFlat (strs n k).length c) ((strs n k).idxOf B) b l.a l.i else 0).sum) =
      ∑ b ∈ Finset.range (strs n k).length, ((la b).map fun l => if l.addr = (strs n k).idxOf A then
        (l.sign : ℂ) * ww eri n (strs n k).length la la (toFlat (strs n k).length c) b ((strs n k).idxOf B) l.a l.i else 0).sum := by
    refine Finset.sum_congr rfl fun s h => ?_
    have h := Finset.mem_range.1 h
    congr 1
    refine List.map_congr_left fun l _ => ?_
    rw [ww_symm hla eri hs h (idx_lt hB)]
  rw [kB'] at kB
  show _ = _ + _
  dsimp only
  rw [← kA, ← kB]
  ring

/-- Linearity of the operators in the matrix elements and in the vector: a complex contraction is four real ones. -/
theorem exc_re (n : Nat) (s : Bool) (p q : Nat) (ψ : Vec ℂ) (A B : Nat) :
    (exc n s p q ψ A B).re = exc n s p q (fun A B => (ψ A B).re) A B ∧ (exc n s p q ψ A B).im = exc n s p q (fun A B => (ψ A B).im) A B := by
  have h : ∀ m : Nat, ((-1 : ℂ) ^ m).re = (-1) ^ m ∧ ((-1 : ℂ) ^ m).im = 0 := by
    intro m
    rcases neg_one_pow_eq_or ℂ m with h | h <;> rcases neg_one_pow_eq_or ℝ m with h' | h'
    · rw [h, h']; simp
    · exfalso
      have : ((-1 : ℝ) ^ m : ℝ) = (-1 : ℝ) := h'
      have e : (((-1 : ℝ) ^ m : ℝ) : ℂ) = (-1 : ℂ) ^ m := by push_cast; rfl
      rw [h', h] at e
      norm_num at e
    · exfalso
      have e : (((-1 : ℝ) ^ m : ℝ) : ℂ) = (-1 : ℂ) ^ m := by push_cast; rfl
      rw [h', h] at e
      norm_num at e
    · rw [h, h']; simp
  cases s
  · simp only [exc_up]
    split
    · rw [Complex.mul_re, Complex.mul_im, (h _).1, (h _).2]; constructor <;> ring
    · exact ⟨rfl, rfl⟩
  · simp only [exc_down]
    split
    · rw [Complex.mul_re, Complex.mul_im, (h _).1, (h _).2]; constructor <;> ring
    · exact ⟨rfl, rfl⟩

theorem vec_re (n : Nat) (e : Nat × Nat) (c : Arr ℂ) : (fun A B => (vec n e c A B).re) = vec n e (fun i j => (c i j).re) := by
  funext A B
  unfold vec
  split <;> rfl
theorem vec_im (n : Nat) (e : Nat × Nat) (c : Arr ℂ) : (fun A B => (vec n e c A B).im) = vec n e (fun i j => (c i j).im) := by
  funext A B
  unfold vec
  split <;> rfl

theorem oneE_re (n : Nat) (f : M2 ℂ) (ψ : Vec ℂ) (A B : Nat) : oneE n (fun _ => f) ψ A B =
    ⟨oneE n (fun _ p q => (f p q).re) (fun A B => (ψ A B).re) A B - oneE n (fun _ p q => (f p q).im) (fun A B => (ψ A B).im) A B,
     oneE n (fun _ p q => (f p q).re) (fun A B => (ψ A B).im) A B + oneE n (fun _ p q => (f p q).im) (fun A B => (ψ A B).re) A B⟩ := by
  unfold oneE
  simp only [Fintype.sum_bool]
  apply Complex.ext
  · simp only [Complex.re_sum, Complex.add_re, Complex.mul_re, (exc_re n _ _ _ ψ A B).1, (exc_re n _ _ _ ψ A B).2, ← Finset.sum_sub_distrib]
    refine Finset.sum_congr rfl fun p _ => Finset.sum_congr rfl fun q _ => ?_
    ring
  · simp only [Complex.im_sum, Complex.add_im, Complex.mul_im, (exc_re n _ _ _ ψ A B).1, (exc_re n _ _ _ ψ A B).2, ← Finset.sum_add_distrib]
    refine Finset.sum_congr rfl fun p _ => Finset.sum_congr rfl fun q _ => ?_
    ring

theorem exc2_re (n : Nat) (s t : Bool) (p q r u : Nat) (ψ : Vec ℂ) (A B : Nat) :
    (exc n s p q (exc n t r u ψ) A B).re = exc n s p q (exc n t r u (fun A B => (ψ A B).re)) A B ∧
    (exc n s p q (exc n t r u ψ) A B).im = exc n s p q (exc n t r u (fun A B => (ψ A B).im)) A B := by
  constructor
  · rw [(exc_re n s p q _ A B).1]
    congr 1
    funext A B
    exact (exc_re n t r u ψ A B).1
  · rw [(exc_re n s p q _ A B).2]
    congr 1
    funext A B
    exact (exc_re n t r u ψ A B).2

theorem twoE_re (n : Nat) (g : M4 ℂ) (ψ : Vec ℂ) (A B : Nat) : twoE n (fun _ _ => g) ψ A B =
    ⟨twoE n (fun _ _ p q r u => (g p q r u).re) (fun A B => (ψ A B).re) A B - twoE n (fun _ _ p q r u => (g p q r u).im) (fun A B => (ψ A B).im) A B,
     twoE n (fun _ _ p q r u => (g p q r u).re) (fun A B => (ψ A B).im) A B + twoE n (fun _ _ p q r u => (g p q r u).im) (fun A B => (ψ A B).re) A B⟩ := by
  unfold twoE
  simp only [Fintype.sum_bool]
  apply Complex.ext
  · simp only [Complex.re_sum, Complex.add_re, Complex.mul_re, (exc2_re n _ _ _ _ _ _ ψ A B).1, (exc2_re n _ _ _ _ _ _ ψ A B).2, ← Finset.sum_sub_distrib]
    refine Finset.sum_congr rfl fun p _ => Finset.sum_congr rfl fun q _ => Finset.sum_congr rfl fun r _ => Finset.sum_congr rfl fun u _ => ?_
    ring
  · simp only [Complex.im_sum, Complex.add_im, Complex.mul_im, (exc2_re n _ _ _ _ _ _ ψ A B).1, (exc2_re n _ _ _ _ _ _ ψ A B).2, ← Finset.sum_add_distrib]
    refine Finset.sum_congr rfl fun p _ => Finset.sum_congr rfl fun q _ => Finset.sum_congr rfl fun r _ => Finset.sum_congr rfl fun u _ => ?_
    ring

/-- The absorbed integrals give the Hamiltonian. -/
theorem absorb_ham {n : Nat} {e : Nat × Nat} (he : e.1 + e.2 ≠ 0) (h1 : M2 ℂ) {g : M4 ℂ} (hg : PairSym g) (c : Arr ℂ) {A B : Nat}
    (hA : A ∈ strs n e.1) (hB : B ∈ strs n e.2) :
    twoE n (fun _ _ p q r u => absorb h1 g n (e.1 + e.2) (1 / 2) r u p q) (vec n e c) A B = hamOp n (fun _ => h1) g (vec n e c) A B := by
  have h : (fun (_ _ : Bool) p q r u => absorb h1 g n (e.1 + e.2) (1 / 2) r u p q) = fun (_ _ : Bool) p q r u => (g p q r u +
        (if p = q then (h1 r u - (∑ i ∈ Finset.range n, g r i i u) * (1 / 2)) * (1 / ((e.1 + e.2 : Nat) : ℂ)) else 0) +
        (if r = u then (h1 p q - (∑ i ∈ Finset.range n, g p i i q) * (1 / 2)) * (1 / ((e.1 + e.2 : Nat) : ℂ)) else 0)) * (1 / 2) := by
    funext _ _ p q r u
    unfold absorb
    dsimp only
    rw [hg r u p q]
    ring
  rw [h, absorb_twoE he h1 g (1 / 2) c hA hB]
  unfold hamOp oneE nrm exc
  simp only [Fintype.sum_bool, Finset.sum_add_distrib]
  ring

theorem energy_val {n : Nat} {e : Nat × Nat} {σ c : Arr ℂ} {φ : Vec ℂ} (h : Holds n e σ φ) :
    (∑ i ∈ Finset.range (strs n e.1).length, ∑ j ∈ Finset.range (strs n e.2).length, star (c i j) * σ i j) = dot n (vec n e c) φ := by
  rw [strs_length, strs_length]
  rw [← Verif.FragTables.ovl_vec n e (fun i j => star (c i j)) σ]
  unfold dot ovl
  refine Finset.sum_congr rfl fun A _ => Finset.sum_congr rfl fun B _ => ?_
  unfold vec
  by_cases hm : A ∈ strs n e.1 ∧ B ∈ strs n e.2
  · simp only [if_pos hm, h A hm.1 B hm.2]
  · simp only [if_neg hm, star_zero, zero_mul]

end Verif.CplxCi
