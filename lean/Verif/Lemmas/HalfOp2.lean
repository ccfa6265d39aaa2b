import Verif.Lemmas.HalfOp
import Verif.Props.FciRdm
import Mathlib.Algebra.CharZero.Defs
/-!
# What the padded matrices do to padded vectors
-/
namespace Verif.HalfOp
open Verif.Dummy Verif.FciRdm Verif.Fockspace Verif.Spec.Tdm Verif.Spec.FciRdm Verif.Spec.HalfOp Verif.Tdm Verif.Props.FciRdm
open Verif.Spec.Fsucc (nOcc nAbove)

variable {K : Type} [Field K]

/-! ### sums -/

theorem sum_lt (n : Nat) (F : Nat → K) : (∑ p ∈ Finset.range (n + 1), if p < n then F p else 0) = ∑ p ∈ Finset.range n, F p := by
  rw [Finset.sum_range_succ, if_neg (Nat.lt_irrefl n), add_zero]
  exact Finset.sum_congr rfl fun p hp => if_pos (Finset.mem_range.1 hp)

theorem sum_lt2 (n : Nat) (F : Nat → K) : (∑ p ∈ Finset.range (n + 2), if p < n then F p else 0) = ∑ p ∈ Finset.range n, F p := by
  rw [Finset.sum_range_succ, Finset.sum_range_succ, if_neg (Nat.lt_irrefl n), if_neg (by omega), add_zero, add_zero]
  exact Finset.sum_congr rfl fun p hp => if_pos (Finset.mem_range.1 hp)

theorem sum_at {N n : Nat} (h : n < N) (F : Nat → K) : (∑ p ∈ Finset.range N, if p = n then F p else 0) = F n := by
  rw [Finset.sum_ite_eq' (Finset.range N) n F, if_pos (Finset.mem_range.2 h)]

/-- Exchange of both pairs of indices in a sum. -/
theorem sum_pairs (N : Nat) (F : Nat → Nat → Nat → Nat → Bool → Bool → K) :
    (∑ p ∈ Finset.range N, ∑ q ∈ Finset.range N, ∑ r ∈ Finset.range N, ∑ u ∈ Finset.range N, ∑ s : Bool, ∑ t : Bool, F p q r u s t) =
    ∑ p ∈ Finset.range N, ∑ q ∈ Finset.range N, ∑ r ∈ Finset.range N, ∑ u ∈ Finset.range N, ∑ s : Bool, ∑ t : Bool, F r u p q t s := by
  calc _ = ∑ r ∈ Finset.range N, ∑ u ∈ Finset.range N, ∑ p ∈ Finset.range N, ∑ q ∈ Finset.range N, ∑ s : Bool, ∑ t : Bool,
        F p q r u s t := by
        rw [Finset.sum_comm' (t' := Finset.range N) (s' := fun _ => Finset.range N) (by simp)]
        rw [Finset.sum_comm]
        refine Eq.trans (Finset.sum_congr rfl fun p _ => Finset.sum_congr rfl fun q _ => rfl) ?_
        calc _ = ∑ p ∈ Finset.range N, ∑ r ∈ Finset.range N, ∑ q ∈ Finset.range N, ∑ u ∈ Finset.range N, ∑ s : Bool, ∑ t : Bool,
              F p q r u s t := Finset.sum_congr rfl fun p _ => Finset.sum_comm
          _ = ∑ r ∈ Finset.range N, ∑ p ∈ Finset.range N, ∑ q ∈ Finset.range N, ∑ u ∈ Finset.range N, ∑ s : Bool, ∑ t : Bool,
              F p q r u s t := Finset.sum_comm
          _ = ∑ r ∈ Finset.range N, ∑ p ∈ Finset.range N, ∑ u ∈ Finset.range N, ∑ q ∈ Finset.range N, ∑ s : Bool, ∑ t : Bool,
              F p q r u s t := Finset.sum_congr rfl fun r _ => Finset.sum_congr rfl fun p _ => Finset.sum_comm
          _ = _ := Finset.sum_congr rfl fun r _ => Finset.sum_comm
    _ = _ := Finset.sum_congr rfl fun r _ => Finset.sum_congr rfl fun u _ => Finset.sum_congr rfl fun p _ =>
        Finset.sum_congr rfl fun q _ => Finset.sum_comm

/-- Exchange of the indices in both pairs. -/
theorem sum_inner (N : Nat) (F : Nat → Nat → Nat → Nat → K) :
    (∑ p ∈ Finset.range N, ∑ q ∈ Finset.range N, ∑ r ∈ Finset.range N, ∑ u ∈ Finset.range N, F p q r u) =
    ∑ p ∈ Finset.range N, ∑ q ∈ Finset.range N, ∑ r ∈ Finset.range N, ∑ u ∈ Finset.range N, F q p u r := by
  rw [Finset.sum_comm]
  exact Finset.sum_congr rfl fun p _ => Finset.sum_congr rfl fun q _ => Finset.sum_comm

/-! ### operators -/

theorem exc_smul (N : Nat) (s : Bool) (p q : Nat) (c : K) (ψ : Vec K) :
    exc N s p q (fun A B => c * ψ A B) = fun A B => c * exc N s p q ψ A B := by
  unfold exc; rw [ann_smul, cre_smul]

theorem cre_sum {ι : Type} (N : Nat) (s : Bool) (p : Nat) (I : Finset ι) (ψ : ι → Vec K) :
    cre N s p (fun A B => ∑ i ∈ I, ψ i A B) = fun A B => ∑ i ∈ I, cre N s p (ψ i) A B := by
  funext A B
  unfold cre
  cases s
  · simp only [Bool.false_eq_true, if_false]; split
    · rw [Finset.mul_sum]
    · simp
  · simp only [if_true]; split
    · rw [Finset.mul_sum]
    · simp

theorem exc_sum {ι : Type} (N : Nat) (s : Bool) (p q : Nat) (I : Finset ι) (ψ : ι → Vec K) :
    exc N s p q (fun A B => ∑ i ∈ I, ψ i A B) = fun A B => ∑ i ∈ I, exc N s p q (ψ i) A B := by
  unfold exc
  rw [show ann N s q (fun A B => ∑ i ∈ I, ψ i A B) = fun A B => ∑ i ∈ I, ann N s q (ψ i) A B from
    funext fun A => funext fun B => Ladder.ann_sum N s q I ψ A B, cre_sum]

theorem exc_diag {N p : Nat} (s : Bool) (hp : p < N) (ψ : Vec K) (A B : Nat) :
    exc N s p p ψ A B = if (if s then B else A).testBit p then ψ A B else 0 := by
  unfold exc cre ann
  cases s
  · simp only [Bool.false_eq_true, if_false, Ladder.testBit_xor_same, Ladder.xor_xor]
    cases hb : A.testBit p
    · simp
    · simp only [if_true, Bool.not_true, Bool.false_eq_true, if_false, ← mul_assoc, Ladder.sA N p p A hp]
      simp [Ladder.sq1]
  · simp only [if_true, Ladder.testBit_xor_same, Ladder.xor_xor]
    cases hb : B.testBit p
    · simp
    · simp only [if_true, Bool.not_true, Bool.false_eq_true, if_false, ← mul_assoc, pow_add, Ladder.sA N p p B hp]
      have h1 := Ladder.sq1 (K := K) (nOcc 0 N A)
      have h2 := Ladder.sq1 (K := K) (nAbove N B p)
      simp only [Nat.lt_irrefl, if_false, mul_one]
      linear_combination ψ A B * h2 * (-1 : K) ^ nOcc 0 N A * (-1 : K) ^ nOcc 0 N A + ψ A B * h1

/-- The number operator. -/
theorem exc_number (N : Nat) (ψ : Vec K) (A B : Nat) :
    (∑ p ∈ Finset.range N, ∑ s : Bool, exc N s p p ψ A B) = ((nOcc 0 N A + nOcc 0 N B : Nat) : K) * ψ A B := by
  rw [Nat.cast_add, nOcc_sum, nOcc_sum, ← Finset.sum_add_distrib, Finset.sum_mul]
  refine Finset.sum_congr rfl fun p hp => ?_
  rw [Fintype.sum_bool, exc_diag true (Finset.mem_range.1 hp), exc_diag false (Finset.mem_range.1 hp)]
  simp only [if_true, Bool.false_eq_true, if_false]
  split <;> split <;> ring

theorem number_vec (N : Nat) (e : Nat × Nat) (c : Arr K) :
    (fun A B => ∑ p ∈ Finset.range N, ∑ s : Bool, exc N s p p (vec N e c) A B) = fun A B => ((e.1 + e.2 : Nat) : K) * vec N e c A B := by
  funext A B
  rw [exc_number]
  unfold vec
  split
  · next h => rw [(mem_strs.1 h.1).2, (mem_strs.1 h.2).2]
  · simp

/-- `p'_s q_s r'_t u_t` in normal order. -/
theorem exc_exc {N p q r u : Nat} (s t : Bool) (hq : q < N) (hr : r < N) (hu : u < N) (ψ : Vec K) (A B : Nat) :
    exc N s p q (exc N t r u ψ) A B = (if s = t ∧ q = r then exc N s p u ψ A B else 0) +
      cre N s p (cre N t r (ann N t u (ann N s q ψ))) A B := by
  have h : ann N s q (cre N t r (ann N t u ψ)) = fun A B => (if t = s ∧ r = q then ann N t u ψ A B else 0) -
      cre N t r (ann N s q (ann N t u ψ)) A B := funext fun A => funext fun B => ann_cre N t s r q hr hq (ann N t u ψ) A B
  unfold exc
  rw [h, cre_sub', ann_comm N t s u q hu hq]
  rw [show (fun A B => -ann N t u (ann N s q ψ) A B) = fun A B => (-1) * ann N t u (ann N s q ψ) A B from by funext A B; ring,
    cre_smul, cre_smul]
  by_cases hc : s = t ∧ q = r
  · obtain ⟨rfl, rfl⟩ := hc
    simp only [and_self, if_true]
    ring
  · rw [if_neg hc]
    have hc' : ¬(t = s ∧ r = q) := fun h => hc ⟨h.1.symm, h.2.symm⟩
    simp only [hc', if_false]
    rw [show cre N s p (fun _ _ => (0 : K)) = fun _ _ => 0 from cre_zero N s p]
    ring

/-- `p'_s r'_t u_t q_s`. -/
def nrm (N : Nat) (s t : Bool) (p q r u : Nat) (ψ : Vec K) : Vec K := cre N s p (cre N t r (ann N t u (ann N s q ψ)))

/-- Both pairs may be exchanged. -/
theorem nrm_swap {N p q r u : Nat} (s t : Bool) (hp : p < N) (hq : q < N) (hr : r < N) (hu : u < N) (ψ : Vec K) :
    nrm N s t p q r u ψ = nrm N t s r u p q ψ := by
  have e : ∀ φ : Vec K, (fun A B => -φ A B) = fun A B => (-1) * φ A B := fun φ => by funext A B; ring
  unfold nrm
  rw [ann_comm N s t q u hq hu, e, cre_smul, cre_smul, cre_comm N t s r p hr hp]
  funext A B
  ring

/-- What `absorb_h1e` followed by the contraction gives, for a vector with at least one electron. -/
theorem absorb_twoE [CharZero K] {N : Nat} {e : Nat × Nat} (he : e.1 + e.2 ≠ 0) (h1 : M2 K) (h2 : M4 K) (fac : K) (c : Arr K) {A B : Nat}
    (hA : A ∈ strs N e.1) (hB : B ∈ strs N e.2) :
    twoE N (fun _ _ p q r u => (h2 p q r u +
        (if p = q then (h1 r u - (∑ i ∈ Finset.range N, h2 r i i u) * (1 / 2)) * (1 / ((e.1 + e.2 : Nat) : K)) else 0) +
        (if r = u then (h1 p q - (∑ i ∈ Finset.range N, h2 p i i q) * (1 / 2)) * (1 / ((e.1 + e.2 : Nat) : K)) else 0)) * fac)
      (vec N e c) A B =
    fac * (2 * oneE N (fun _ => h1) (vec N e c) A B +
      ∑ p ∈ Finset.range N, ∑ q ∈ Finset.range N, ∑ r ∈ Finset.range N, ∑ u ∈ Finset.range N, ∑ s : Bool, ∑ t : Bool,
        h2 p q r u * nrm N s t p q r u (vec N e c) A B) := by
  generalize hf : (fun p q => (h1 p q - (∑ i ∈ Finset.range N, h2 p i i q) * (1 / 2)) * (1 / ((e.1 + e.2 : Nat) : K))) = f
  have hf' : ∀ p q, (h1 p q - (∑ i ∈ Finset.range N, h2 p i i q) * (1 / 2)) * (1 / ((e.1 + e.2 : Nat) : K)) = f p q := fun p q =>
    congrFun (congrFun hf p) q
  simp only [hf']
  have hn : ((e.1 + e.2 : Nat) : K) ≠ 0 := Nat.cast_ne_zero.2 he
  have hA' := (mem_strs.1 hA).2
  have hB' := (mem_strs.1 hB).2
  generalize hψ : vec N e c = ψ
  have hnum := number_vec N e c
  rw [hψ] at hnum
  -- the part with the first pair equal
  have e1 : (∑ p ∈ Finset.range N, ∑ q ∈ Finset.range N, ∑ r ∈ Finset.range N, ∑ u ∈ Finset.range N, ∑ s : Bool, ∑ t : Bool,
      (if p = q then f r u else 0) * exc N s p q (exc N t r u ψ) A B) = ((e.1 + e.2 : Nat) : K) * oneE N (fun _ => f) ψ A B := by
    have g : ∀ p ∈ Finset.range N, (∑ q ∈ Finset.range N, ∑ r ∈ Finset.range N, ∑ u ∈ Finset.range N, ∑ s : Bool, ∑ t : Bool,
        (if p = q then f r u else 0) * exc N s p q (exc N t r u ψ) A B) =
        ∑ s : Bool, exc N s p p (oneE N (fun _ => f) ψ) A B := by
      intro p hp
      rw [Finset.sum_eq_single p]
      · simp only [if_true]
        unfold oneE
        simp only [exc_sum, exc_smul]
        rw [Finset.sum_comm]
        simp only [Fintype.sum_bool, ← Finset.sum_add_distrib]
        rw [Finset.sum_comm]
      · intro q _ hq
        simp only [if_neg (Ne.symm hq), zero_mul, Finset.sum_const_zero]
      · exact fun h => absurd hp h
    rw [Finset.sum_congr rfl g, exc_number, hA', hB']
  have e2 : (∑ p ∈ Finset.range N, ∑ q ∈ Finset.range N, ∑ r ∈ Finset.range N, ∑ u ∈ Finset.range N, ∑ s : Bool, ∑ t : Bool,
      (if r = u then f p q else 0) * exc N s p q (exc N t r u ψ) A B) = ((e.1 + e.2 : Nat) : K) * oneE N (fun _ => f) ψ A B := by
    unfold oneE
    simp only [Finset.mul_sum]
    refine Finset.sum_congr rfl fun p _ => Finset.sum_congr rfl fun q _ => ?_
    have g : ∀ r ∈ Finset.range N, (∑ u ∈ Finset.range N, ∑ s : Bool, ∑ t : Bool,
        (if r = u then f p q else 0) * exc N s p q (exc N t r u ψ) A B) =
        ∑ s : Bool, f p q * exc N s p q (fun A B => ∑ t : Bool, exc N t r r ψ A B) A B := by
      intro r hr
      rw [Finset.sum_eq_single r]
      · simp only [if_true, exc_sum, Finset.mul_sum]
      · intro u _ hu
        simp only [if_neg (Ne.symm hu), zero_mul, Finset.sum_const_zero]
      · exact fun h => absurd hr h
    rw [Finset.sum_congr rfl g, Finset.sum_comm]
    refine Finset.sum_congr rfl fun s _ => ?_
    rw [← Finset.mul_sum, ← congrFun (congrFun (exc_sum N s p q (Finset.range N) fun r A B => ∑ t : Bool, exc N t r r ψ A B) A) B, hnum,
      exc_smul]
    ring
  have e3 : (∑ p ∈ Finset.range N, ∑ q ∈ Finset.range N, ∑ r ∈ Finset.range N, ∑ u ∈ Finset.range N, ∑ s : Bool, ∑ t : Bool,
      h2 p q r u * exc N s p q (exc N t r u ψ) A B) =
      oneE N (fun _ p u => ∑ i ∈ Finset.range N, h2 p i i u) ψ A B +
      ∑ p ∈ Finset.range N, ∑ q ∈ Finset.range N, ∑ r ∈ Finset.range N, ∑ u ∈ Finset.range N, ∑ s : Bool, ∑ t : Bool,
        h2 p q r u * nrm N s t p q r u ψ A B := by
    have g : oneE N (fun _ p u => ∑ i ∈ Finset.range N, h2 p i i u) ψ A B =
        ∑ p ∈ Finset.range N, ∑ q ∈ Finset.range N, ∑ r ∈ Finset.range N, ∑ u ∈ Finset.range N, ∑ s : Bool, ∑ t : Bool,
          h2 p q r u * (if s = t ∧ q = r then exc N s p u ψ A B else 0) := by
      unfold oneE
      refine Finset.sum_congr rfl fun p _ => ?_
      have g2 : ∀ q ∈ Finset.range N, (∑ r ∈ Finset.range N, ∑ u ∈ Finset.range N, ∑ s : Bool, ∑ t : Bool,
          h2 p q r u * (if s = t ∧ q = r then exc N s p u ψ A B else 0)) =
          ∑ u ∈ Finset.range N, ∑ s : Bool, h2 p q q u * exc N s p u ψ A B := by
        intro q hq
        rw [Finset.sum_eq_single q]
        · refine Finset.sum_congr rfl fun u _ => Finset.sum_congr rfl fun s _ => ?_
          cases s <;> simp
        · intro r _ hr
          simp [Ne.symm hr]
        · exact fun h => absurd hq h
      rw [Finset.sum_congr rfl g2]
      refine Eq.trans (Finset.sum_congr rfl fun u _ => ?_) Finset.sum_comm
      refine Eq.trans ?_ Finset.sum_comm
      exact Finset.sum_congr rfl fun s _ => Finset.sum_mul _ _ _
    rw [g]
    simp only [← Finset.sum_add_distrib]
    refine Finset.sum_congr rfl fun p _ => Finset.sum_congr rfl fun q hq => Finset.sum_congr rfl fun r hr =>
      Finset.sum_congr rfl fun u hu => Finset.sum_congr rfl fun s _ => Finset.sum_congr rfl fun t _ => ?_
    rw [exc_exc s t (Finset.mem_range.1 hq) (Finset.mem_range.1 hr) (Finset.mem_range.1 hu), mul_add]
    rfl
  have e4 : ((e.1 + e.2 : Nat) : K) * oneE N (fun _ => f) ψ A B =
      oneE N (fun _ => h1) ψ A B - 1 / 2 * oneE N (fun _ p u => ∑ i ∈ Finset.range N, h2 p i i u) ψ A B := by
    rw [← hf]
    unfold oneE
    simp only [Finset.mul_sum, ← Finset.sum_sub_distrib]
    refine Finset.sum_congr rfl fun p _ => Finset.sum_congr rfl fun q _ => Finset.sum_congr rfl fun s _ => ?_
    field_simp
  have e5 : twoE N (fun _ _ p q r u => (h2 p q r u + (if p = q then f r u else 0) + (if r = u then f p q else 0)) * fac) ψ A B =
      fac * ((∑ p ∈ Finset.range N, ∑ q ∈ Finset.range N, ∑ r ∈ Finset.range N, ∑ u ∈ Finset.range N, ∑ s : Bool, ∑ t : Bool,
        h2 p q r u * exc N s p q (exc N t r u ψ) A B) +
      (∑ p ∈ Finset.range N, ∑ q ∈ Finset.range N, ∑ r ∈ Finset.range N, ∑ u ∈ Finset.range N, ∑ s : Bool, ∑ t : Bool,
        (if p = q then f r u else 0) * exc N s p q (exc N t r u ψ) A B) +
      ∑ p ∈ Finset.range N, ∑ q ∈ Finset.range N, ∑ r ∈ Finset.range N, ∑ u ∈ Finset.range N, ∑ s : Bool, ∑ t : Bool,
        (if r = u then f p q else 0) * exc N s p q (exc N t r u ψ) A B) := by
    unfold twoE
    simp only [← Finset.sum_add_distrib, Finset.mul_sum]
    refine Finset.sum_congr rfl fun p _ => Finset.sum_congr rfl fun q _ => Finset.sum_congr rfl fun r _ => Finset.sum_congr rfl fun u _ =>
      Finset.sum_congr rfl fun s _ => Finset.sum_congr rfl fun t _ => ?_
    ring
  rw [e5, e1, e2, e3, e4]
  ring

/-! ### packed matrices -/

theorem pack2_sym (f : M2 K) : Sym2 (pack2 f) := fun p q => by unfold pack2; rw [max_comm, min_comm]

theorem pack_sym (g : M4 K) : Sym4 (pack g) := fun p q r u => by
  unfold pack
  exact ⟨by rw [max_comm p, min_comm p], by rw [max_comm r, min_comm r]⟩

theorem pack2_of_sym {f : M2 K} (h : Sym2 f) : pack2 f = f := by
  funext p q
  unfold pack2
  rcases Nat.le_total p q with hq | hq
  · rw [Nat.max_eq_right hq, Nat.min_eq_left hq, h]
  · rw [Nat.max_eq_left hq, Nat.min_eq_right hq]

theorem pack_of_sym {g : M4 K} (h : Sym4 g) : pack g = g := by
  funext p q r u
  have h1 : ∀ r u, g (max p q) (min p q) r u = g p q r u := fun r u =>
    congrFun (congrFun (pack2_of_sym (f := fun p q => g p q r u) fun p q => (h p q r u).1) p) q
  have h2 : g p q (max r u) (min r u) = g p q r u :=
    congrFun (congrFun (pack2_of_sym (f := fun r u => g p q r u) fun r u => (h p q r u).2) r) u
  unfold pack
  rw [h1, h2]

theorem halfMat_sym (h : Nat → K) (n : Nat) : Sym2 (halfMat h n) := fun p q => by
  simp only [halfMat]; rw [add_comm]

theorem halfMat3_sym {h : Nat → Nat → Nat → K} {c : Bool} (hs : ∀ p q r, if c then h p q r = h p r q else h p q r = h q p r) (n : Nat) :
    Sym4 (halfMat3 h c n) := by
  intro p q r u
  generalize hf : (fun p q r u => if c then (if p < n ∧ q = n ∧ r < n ∧ u < n then h p r u else 0)
    else (if p < n ∧ q < n ∧ r = n ∧ u < n then h p q u else 0)) = f
  have e0 : ∀ p q r u, halfMat3 h c n p q r u = (f p q r u + f q p u r) + (f r u p q + f u r q p) := by
    intro p q r u
    rw [← hf]
    rfl
  cases c
  · have e1 : ∀ p q r u, f p q r u = f q p r u := by
      intro p q r u
      rw [← hf]
      simp only [Bool.false_eq_true, if_false] at hs ⊢
      rw [hs p q u]
      congr 1
      grind
    rw [e0, e0, e0, e1 p q r u, e1 q p u r, e1 r u p q, e1 u r q p]
    constructor <;> ring
  · have e1 : ∀ p q r u, f p q r u = f p q u r := by
      intro p q r u
      rw [← hf]
      simp only [if_true] at hs ⊢
      rw [hs p r u]
      congr 1
      grind
    rw [e0, e0, e0, e1 p q r u, e1 q p u r, e1 r u p q, e1 u r q p]
    constructor <;> ring

/-- The matrix that `absorb_h1e` packs is symmetric if its arguments are. -/
theorem absorb_pack {h1 : M2 K} {h2 : M4 K} (s1 : Sym2 h1) (s2 : Sym4 h2) (s3 : ∀ p q r u, h2 p q r u = h2 r u p q) (n nel : Nat) (fac : K) :
    pack (absorbH1e h1 h2 n nel fac) = fun p q r u => (h2 p q r u +
        (if p = q then (h1 r u - (∑ i ∈ Finset.range n, h2 r i i u) * (1 / 2)) * (1 / (nel : K)) else 0) +
        (if r = u then (h1 p q - (∑ i ∈ Finset.range n, h2 p i i q) * (1 / 2)) * (1 / (nel : K)) else 0)) * fac := by
  have hk : ∀ p q, (∑ i ∈ Finset.range n, h2 p i i q) = ∑ i ∈ Finset.range n, h2 q i i p := fun p q =>
    Finset.sum_congr rfl fun i _ => by rw [s3, (s2 i q p i).1, (s2 q i p i).2]
  generalize hf : (fun p q => (h1 p q - (∑ i ∈ Finset.range n, h2 p i i q) * (1 / 2)) * (1 / (nel : K))) = f
  have fs : Sym2 f := by
    intro p q
    rw [← hf]
    dsimp only
    rw [s1 p q, hk p q]
  have e1 : ∀ p q, (h1 p q - (∑ i ∈ Finset.range n, h2 p i i q) * (1 / 2)) * (1 / (nel : K)) = f p q := fun p q =>
    congrFun (congrFun hf p) q
  unfold absorbH1e
  simp only [e1]
  have gs : Sym4 (fun p q r u => h2 p q r u + (if p = q then f r u else 0) + (if r = u then f p q else 0)) := by
    intro p q r u
    constructor
    · dsimp only
      rw [(s2 p q r u).1, fs p q]
      simp only [eq_comm]
    · dsimp only
      rw [(s2 p q r u).2, fs r u]
      simp only [eq_comm]
  rw [pack_of_sym gs]
  exact pack_of_sym fun p q r u => ⟨by rw [(gs p q r u).1], by rw [(gs p q r u).2]⟩

/-! ### one electron more or less -/

theorem cre_dummy (n : Nat) (s : Bool) (ψ : Vec K) : cre (n + 1) s n (pad n false false ψ) = pad n (!s) s ψ := by
  cases s
  · exact cre_pad_up false ψ
  · rw [cre_pad_down]; funext A B; simp

theorem cre_empty {n p : Nat} (s : Bool) (ψ : Vec K) (hp : p < n) :
    cre (n + 1) s p (pad n false false ψ) = pad n false false (cre n s p ψ) := by
  rw [cre_pad s false false ψ hp]; funext A B; simp

theorem ann_dummy_ne {n : Nat} {s t : Bool} (h : t ≠ s) (ψ : Vec K) : ann (n + 1) t n (pad n (!s) s ψ) = fun _ _ => 0 :=
  ann_pad_none t (!s) s ψ (by cases s <;> cases t <;> simp_all)

theorem unpad_dummy {n A B : Nat} (s t : Bool) (ψ : Vec K) (hA : A < 2 ^ n) (hB : B < 2 ^ n) :
    unpad n (!s) s (pad n (!t) t ψ) A B = if t = s then ψ A B else 0 := by
  by_cases h : t = s
  · subst h; rw [if_pos rfl, unpad_pad _ _ ψ hA hB]
  · rw [if_neg h, unpad_pad_ne ψ hA hB]
    rintro ⟨_, h2⟩
    exact h h2.symm

theorem ann_none (n : Nat) (s : Bool) (ψ : Vec K) : ann (n + 1) s n (pad n false false ψ) = fun _ _ => 0 :=
  ann_pad_none s false false ψ (by cases s <;> rfl)

theorem unpad_oneE (n N : Nat) (a b : Bool) (f : Bool → M2 K) (φ : Vec K) (A B : Nat) :
    unpad n a b (oneE N f φ) A B = ∑ p ∈ Finset.range N, ∑ q ∈ Finset.range N, ∑ s : Bool, f s p q * unpad n a b (exc N s p q φ) A B := by
  simp only [unpad, oneE, Finset.mul_sum]
  refine Finset.sum_congr rfl fun p _ => Finset.sum_congr rfl fun q _ => Finset.sum_congr rfl fun s _ => ?_
  ring

theorem unpad_half (n : Nat) (a b : Bool) (h : Nat → K) (φ : Vec K) (A B : Nat) :
    unpad n a b (oneE (n + 1) (fun _ => halfMat h n) φ) A B =
      ∑ q ∈ Finset.range n, h q * ∑ s : Bool, (unpad n a b (exc (n + 1) s n q φ) A B + unpad n a b (exc (n + 1) s q n φ) A B) := by
  rw [unpad_oneE]
  have h1 : ∀ p ∈ Finset.range n, (∑ q ∈ Finset.range (n + 1), ∑ s : Bool, halfMat h n p q * unpad n a b (exc (n + 1) s p q φ) A B) =
      h p * ∑ s : Bool, unpad n a b (exc (n + 1) s p n φ) A B := by
    intro p hp
    have hp' := Finset.mem_range.1 hp
    rw [Finset.sum_range_succ, Finset.sum_eq_zero, zero_add, Finset.mul_sum]
    · have e : halfMat h n p n = h p := by
        simp only [halfMat]
        rw [if_neg (by omega), if_pos (by simpa using hp'), zero_add]
      rw [e]
    · intro q hq
      have hq' := Finset.mem_range.1 hq
      have e : halfMat h n p q = 0 := by
        simp only [halfMat]
        rw [if_neg (by omega), if_neg (by omega), zero_add]
      simp [e]
  have h2 : (∑ q ∈ Finset.range (n + 1), ∑ s : Bool, halfMat h n n q * unpad n a b (exc (n + 1) s n q φ) A B) =
      ∑ q ∈ Finset.range n, h q * ∑ s : Bool, unpad n a b (exc (n + 1) s n q φ) A B := by
    rw [Finset.sum_range_succ]
    have e : halfMat h n n n = 0 := by
      simp only [halfMat]
      rw [if_neg (by omega), zero_add]
    rw [e]
    simp only [zero_mul, Finset.sum_const_zero, add_zero]
    refine Finset.sum_congr rfl fun q hq => ?_
    have hq' := Finset.mem_range.1 hq
    have e : halfMat h n n q = h q := by
      simp only [halfMat]
      rw [if_pos (by simpa using hq'), if_neg (by omega), add_zero]
    rw [e, Finset.mul_sum]
  rw [Finset.sum_range_succ, Finset.sum_congr rfl h1, h2, ← Finset.sum_add_distrib]
  refine Finset.sum_congr rfl fun q _ => ?_
  rw [Finset.sum_add_distrib]
  ring

/-- The padded one-body matrix creates an electron. -/
theorem half_create {n A B : Nat} (s : Bool) (h : Nat → K) (ψ : Vec K) (hA : A < 2 ^ n) (hB : B < 2 ^ n) :
    unpad n false false (oneE (n + 1) (fun _ => halfMat h n) (pad n (!s) s ψ)) A B = ∑ q ∈ Finset.range n, h q * cre n s q ψ A B := by
  rw [unpad_half]
  refine Finset.sum_congr rfl fun q hq => ?_
  have hq' := Finset.mem_range.1 hq
  congr 1
  have h1 : ∀ t, unpad n false false (exc (n + 1) t n q (pad n (!s) s ψ)) A B = 0 := fun t =>
    unpad_cre t false false _ hA hB (by cases t <;> rfl)
  have h2 : ∀ t, unpad n false false (exc (n + 1) t q n (pad n (!s) s ψ)) A B = if t = s then cre n s q ψ A B else 0 := by
    intro t
    unfold exc
    by_cases ht : t = s
    · subst ht
      rw [if_pos rfl, ann_dummy, cre_empty _ _ hq', unpad_pad _ _ _ hA hB]
    · rw [if_neg ht, ann_dummy_ne ht, cre_zero, unpad_zero]
  simp only [h1, h2, zero_add]
  simp

/-- The padded one-body matrix annihilates an electron. -/
theorem half_destroy {n A B : Nat} (s : Bool) (h : Nat → K) (ψ : Vec K) (hA : A < 2 ^ n) (hB : B < 2 ^ n) :
    unpad n (!s) s (oneE (n + 1) (fun _ => halfMat h n) (pad n false false ψ)) A B = ∑ q ∈ Finset.range n, h q * ann n s q ψ A B := by
  rw [unpad_half]
  refine Finset.sum_congr rfl fun q hq => ?_
  have hq' := Finset.mem_range.1 hq
  congr 1
  have h1 : ∀ t, unpad n (!s) s (exc (n + 1) t q n (pad n false false ψ)) A B = 0 := by
    intro t
    unfold exc
    rw [ann_none, cre_zero, unpad_zero]
  have h2 : ∀ t, unpad n (!s) s (exc (n + 1) t n q (pad n false false ψ)) A B = if t = s then ann n s q ψ A B else 0 := by
    intro t
    unfold exc
    rw [ann_empty _ _ hq', cre_dummy, unpad_dummy _ _ _ hA hB]
    by_cases ht : t = s
    · subst ht; rfl
    · rw [if_neg ht, if_neg ht]
  simp only [h1, h2, add_zero]
  simp

/-- The four placements of the half-electron in the padded two-body matrix. -/
theorem sum_half3 (n : Nat) (c : Bool) (h : Nat → Nat → Nat → K) (G : Nat → Nat → Nat → Nat → Bool → Bool → K)
    (hG : ∀ p ≤ n, ∀ q ≤ n, ∀ r ≤ n, ∀ u ≤ n, ∀ s t, G p q r u s t = G r u p q t s) :
    (∑ p ∈ Finset.range (n + 1), ∑ q ∈ Finset.range (n + 1), ∑ r ∈ Finset.range (n + 1), ∑ u ∈ Finset.range (n + 1), ∑ s : Bool, ∑ t : Bool,
      halfMat3 h c n p q r u * G p q r u s t) =
    2 * ∑ p ∈ Finset.range n, ∑ q ∈ Finset.range n, ∑ r ∈ Finset.range n, ∑ s : Bool, ∑ t : Bool,
      h p q r * if c then G p n q r s t + G n p r q s t else G p q n r s t + G q p r n s t := by
  generalize hf : (fun p q r u => if c then (if p < n ∧ q = n ∧ r < n ∧ u < n then h p r u else 0)
    else (if p < n ∧ q < n ∧ r = n ∧ u < n then h p q u else 0)) = f
  have e0 : ∀ p q r u, halfMat3 h c n p q r u = (f p q r u + f q p u r) + (f r u p q + f u r q p) := by
    intro p q r u
    rw [← hf]
    rfl
  let S : (Nat → Nat → Nat → Nat → Bool → Bool → K) → K := fun F =>
    ∑ p ∈ Finset.range (n + 1), ∑ q ∈ Finset.range (n + 1), ∑ r ∈ Finset.range (n + 1), ∑ u ∈ Finset.range (n + 1), ∑ s : Bool, ∑ t : Bool,
      F p q r u s t
  have hS : ∀ F F', S (fun p q r u s t => F p q r u s t + F' p q r u s t) = S F + S F' := by
    intro F F'
    simp only [S, Finset.sum_add_distrib]
  have e1 : S (fun p q r u s t => halfMat3 h c n p q r u * G p q r u s t) =
      2 * S (fun p q r u s t => f p q r u * (G p q r u s t + G q p u r s t)) := by
    have a1 : S (fun p q r u s t => (f r u p q + f u r q p) * G p q r u s t) = S (fun p q r u s t => (f p q r u + f q p u r) * G p q r u s t) := by
      refine (sum_pairs (n + 1) _).trans ?_
      refine Finset.sum_congr rfl fun p hp => Finset.sum_congr rfl fun q hq => Finset.sum_congr rfl fun r hr =>
        Finset.sum_congr rfl fun u hu => Finset.sum_congr rfl fun s _ => Finset.sum_congr rfl fun t _ => ?_
      rw [hG r (by simpa [Nat.lt_succ_iff] using hr) u (by simpa [Nat.lt_succ_iff] using hu) p (by simpa [Nat.lt_succ_iff] using hp) q
        (by simpa [Nat.lt_succ_iff] using hq)]
    have a2 : S (fun p q r u s t => f q p u r * G p q r u s t) = S (fun p q r u s t => f p q r u * G q p u r s t) :=
      (sum_inner (n + 1) _).trans rfl
    have a3 : S (fun p q r u s t => (f p q r u + f q p u r) * G p q r u s t) = S (fun p q r u s t => f p q r u * (G p q r u s t + G q p u r s t)) := by
      calc _ = S (fun p q r u s t => f p q r u * G p q r u s t + f q p u r * G p q r u s t) := by simp only [add_mul]
        _ = S (fun p q r u s t => f p q r u * G p q r u s t) + S (fun p q r u s t => f p q r u * G q p u r s t) := by rw [hS, a2]
        _ = _ := by rw [← hS]; simp only [mul_add]
    calc _ = S (fun p q r u s t => (f p q r u + f q p u r) * G p q r u s t + (f r u p q + f u r q p) * G p q r u s t) := by
            simp only [e0, add_mul]
      _ = _ := by rw [hS, a1, a3]; ring
  refine e1.trans ?_
  congr 1
  simp only [S]
  rw [← hf]
  cases c
  · simp only [Bool.false_eq_true, if_false, ite_and, ite_mul, zero_mul]
    have s1 : ∀ (c : Prop) [Decidable c] (I : Finset Nat) (F : Nat → K), (∑ x ∈ I, if c then F x else 0) = if c then ∑ x ∈ I, F x else 0 := by
      intro c _ I F; split <;> simp
    have s2 : ∀ (c : Prop) [Decidable c] (F : Bool → K), (∑ x, if c then F x else 0) = if c then ∑ x, F x else 0 := by
      intro c _ F; split <;> simp
    simp only [s1, s2, sum_lt, sum_at (Nat.lt_succ_self n)]
  · simp only [if_true, ite_and, ite_mul, zero_mul]
    have s1 : ∀ (c : Prop) [Decidable c] (I : Finset Nat) (F : Nat → K), (∑ x ∈ I, if c then F x else 0) = if c then ∑ x ∈ I, F x else 0 := by
      intro c _ I F; split <;> simp
    have s2 : ∀ (c : Prop) [Decidable c] (F : Bool → K), (∑ x, if c then F x else 0) = if c then ∑ x, F x else 0 := by
      intro c _ F; split <;> simp
    simp only [s1, s2, sum_lt, sum_at (Nat.lt_succ_self n)]

end Verif.HalfOp
