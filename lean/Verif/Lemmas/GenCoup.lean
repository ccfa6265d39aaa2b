import Verif.Model.GenCoup
import Verif.Spec.GenCoup
import Mathlib.Algebra.BigOperators.Intervals
import Mathlib.Algebra.Order.BigOperators.Group.Finset
import Mathlib.Tactic.Linarith
import Mathlib.Tactic.Ring
/-!
# Lemmas for C126
-/
namespace Verif.GenCoup

theorem at_lower (p : List Int) (i j : Nat) : at_ (lower p i) j = if j = i ∧ i < p.length then at_ p i - 2 else at_ p j := by
  unfold at_ lower
  simp only [List.getD_eq_getElem?_getD, List.getElem?_set]
  by_cases h : i = j
  · subst h
    by_cases h' : i < p.length
    · simp [h', at_]
    · simp [h']
  · rw [if_neg h, if_neg (by omega)]

theorem ext_at {p q : List Int} (h : p.length = q.length) (h' : ∀ i < p.length, at_ p i = at_ q i) : p = q := by
  refine List.ext_getElem h fun i h1 h2 => ?_
  have := h' i h1
  unfold at_ at this
  simpa [h1, h2] using this

/-- The paths of pass `k`. -/
def level (l : List Int) (c : List Int) : Nat → List (List Int)
  | 0 => [c]
  | k + 1 => nextPaths l (level l c k)

theorem mem_next {l : List Int} {cur : List (List Int)} {q : List Int} :
    q ∈ nextPaths l cur ↔ ∃ p ∈ cur, ∃ i < l.length, lowerable l p i = true ∧ q = lower p i := by
  unfold nextPaths
  simp only [List.mem_dedup, List.mem_flatMap, List.mem_map, List.mem_filter, List.mem_range]
  constructor
  · rintro ⟨p, hp, i, ⟨hi, h⟩, rfl⟩; exact ⟨p, hp, i, hi, h, rfl⟩
  · rintro ⟨p, hp, i, hi, h, rfl⟩; exact ⟨p, hp, i, ⟨hi, h⟩, rfl⟩

theorem level_empty {l c : List Int} {k : Nat} (h : level l c k = []) (j : Nat) : level l c (k + j) = [] := by
  induction j with
  | zero => exact h
  | succ j ih =>
    change nextPaths l (level l c (k + j)) = []
    rw [ih]; rfl

theorem mem_loop {l c : List Int} {q : List Int} : ∀ (fuel k : Nat) (all : List (List Int)),
    q ∈ loop l fuel all (level l c k) ↔ q ∈ all ∨ ∃ j < fuel, q ∈ level l c (k + j)
  | 0, k, all => by simp [loop]
  | fuel + 1, k, all => by
    unfold loop
    by_cases h : level l c k = []
    · rw [if_pos (by simp [h])]
      constructor
      · exact Or.inl
      · rintro (h' | ⟨j, _, hj⟩)
        · exact h'
        · rw [level_empty h j] at hj; exact absurd hj (by simp)
    · rw [if_neg (by simpa using h), show nextPaths l (level l c k) = level l c (k + 1) from rfl, mem_loop fuel (k + 1)]
      simp only [List.mem_dedup, List.mem_append]
      constructor
      · rintro ((h' | h') | ⟨j, hj, h'⟩)
        · exact Or.inl h'
        · exact Or.inr ⟨0, by omega, h'⟩
        · exact Or.inr ⟨j + 1, by omega, by rw [show k + (j + 1) = k + 1 + j from by omega]; exact h'⟩
      · rintro (h' | ⟨j, hj, h'⟩)
        · exact Or.inl (Or.inl h')
        · rcases j with _ | j
          · exact Or.inl (Or.inr h')
          · exact Or.inr ⟨j, by omega, by rw [show k + 1 + j = k + (j + 1) from by omega]; exact h'⟩

/-- What all paths of the table have in common. -/
structure Weak (l c q : List Int) : Prop where
  len : q.length = l.length
  nonneg : ∀ i < l.length, 0 ≤ at_ q i
  le : ∀ i < l.length, at_ q i ≤ at_ c i
  par : ∀ i < l.length, (at_ c i - at_ q i) % 2 = 0
  up : ∀ i, i + 1 < l.length → at_ q (i + 1) ≤ at_ q i + at_ l (i + 1)
  down : ∀ i, i + 1 < l.length → at_ q i ≤ at_ q (i + 1) + at_ l (i + 1)
  first : at_ q 0 = at_ c 0
  last : at_ q (l.length - 1) = at_ c (l.length - 1)

theorem lowerable_iff {l p : List Int} {i : Nat} : lowerable l p i = true ↔
    0 < i ∧ i + 1 < l.length ∧ 1 < at_ p i ∧ at_ p (i - 1) - at_ l i < at_ p i ∧ at_ p (i + 1) - at_ l (i + 1) < at_ p i := by
  unfold lowerable
  simp only [Bool.and_eq_true, decide_eq_true_eq, and_assoc]

/-- Parity along the ceiling. -/
def ParC (l c : List Int) : Prop := ∀ i, i + 1 < l.length → (at_ c (i + 1) - at_ c i - at_ l (i + 1)) % 2 = 0

theorem weak_lower {l c q : List Int} (hc : ParC l c) (h : Weak l c q) {i : Nat} (hi : lowerable l q i = true) : Weak l c (lower q i) := by
  obtain ⟨h1, h2, h3, h4, h5⟩ := lowerable_iff.1 hi
  have hlen := h.len
  have hat : ∀ j, at_ (lower q i) j = if j = i then at_ q i - 2 else at_ q j := by
    intro j; rw [at_lower]; by_cases hj : j = i
    · rw [if_pos ⟨hj, by omega⟩, if_pos hj]
    · rw [if_neg (by omega), if_neg hj]
  obtain ⟨k, rfl⟩ : ∃ k, i = k + 1 := ⟨i - 1, by omega⟩
  simp only [Nat.add_sub_cancel] at h4
  have pk := h.par k (by omega)
  have pk1 := h.par (k + 1) (by omega)
  have pk2 := h.par (k + 1 + 1) (by omega)
  have c1 := hc k (by omega)
  have c2 := hc (k + 1) (by omega)
  refine ⟨by unfold lower; rw [List.length_set]; exact hlen, fun j hj => ?_, fun j hj => ?_, fun j hj => ?_, fun j hj => ?_, fun j hj => ?_, ?_, ?_⟩
  · rw [hat]; split
    · omega
    · exact h.nonneg j hj
  · rw [hat]; have := h.le j hj; split
    · rename_i e; subst e; omega
    · exact this
  · rw [hat]; have := h.par j hj; split
    · rename_i e; subst e; omega
    · exact this
  · rw [hat, hat]; have := h.up j hj
    split
    · rename_i e
      rw [if_neg (by omega)]
      rw [e] at this ⊢; omega
    · split
      · rename_i e; subst e
        omega
      · exact this
  · rw [hat, hat]; have := h.down j hj
    split
    · rename_i e; subst e
      rw [if_neg (by omega)]; omega
    · split
      · rename_i e
        obtain rfl : j = k := by omega
        omega
      · exact this
  · rw [hat, if_neg (by omega)]; exact h.first
  · rw [hat, if_neg (by omega)]; exact h.last

theorem weak_level {l c : List Int} (hc : ParC l c) (h : Weak l c c) : ∀ k, ∀ q ∈ level l c k, Weak l c q
  | 0, q, hq => by rw [List.mem_singleton.1 hq]; exact h
  | k + 1, q, hq => by
    obtain ⟨p, hp, i, _, hl, rfl⟩ := mem_next.1 hq
    exact weak_lower hc (weak_level hc h k p hp) hl

/-- A path below the ceiling can be raised. -/
theorem weak_raise {l c q : List Int} (hl : ∀ i < l.length, 1 ≤ at_ l i) (hc : ParC l c) (hcw : Weak l c c) (h : Weak l c q)
    (hne : ∃ i < l.length, at_ q i < at_ c i) :
    ∃ i p, i < l.length ∧ Weak l c p ∧ lowerable l p i = true ∧ q = lower p i ∧ (∀ j, at_ p j = if j = i then at_ q i + 2 else at_ q j) := by
  classical
  obtain ⟨i, hiS, hmin⟩ := Finset.exists_min_image ((Finset.range l.length).filter fun i => at_ q i < at_ c i) (fun i => at_ q i) (by
    obtain ⟨i, h1, h2⟩ := hne
    exact ⟨i, Finset.mem_filter.2 ⟨Finset.mem_range.2 h1, h2⟩⟩)
  obtain ⟨hi, hlt⟩ := Finset.mem_filter.1 hiS
  have hi := Finset.mem_range.1 hi
  have hmin : ∀ j < l.length, at_ q j < at_ c j → at_ q i ≤ at_ q j := fun j h1 h2 =>
    hmin j (Finset.mem_filter.2 ⟨Finset.mem_range.2 h1, h2⟩)
  have h0 : i ≠ 0 := by rintro rfl; have := h.first; omega
  have hn : i ≠ l.length - 1 := by rintro rfl; have := h.last; omega
  obtain ⟨k, rfl⟩ : ∃ k, i = k + 1 := ⟨i - 1, by omega⟩
  have hlen := h.len
  set p := q.set (k + 1) (at_ q (k + 1) + 2) with hp
  have hat : ∀ j, at_ p j = if j = k + 1 then at_ q (k + 1) + 2 else at_ q j := by
    intro j
    rw [hp]
    unfold at_
    simp only [List.getD_eq_getElem?_getD, List.getElem?_set]
    by_cases hj : k + 1 = j
    · subst hj; simp [show k + 1 < q.length by omega]
    · rw [if_neg hj, if_neg (by omega)]
  have pk := h.par k (by omega)
  have pk1 := h.par (k + 1) (by omega)
  have pk2 := h.par (k + 1 + 1) (by omega)
  have c1 := hc k (by omega)
  have c2 := hc (k + 1) (by omega)
  have l1 := hl (k + 1) (by omega)
  have l2 := hl (k + 1 + 1) (by omega)
  have u1 := hcw.up k (by omega)
  have u2 := hcw.down (k + 1) (by omega)
  have m1 := hmin k (by omega)
  have m2 := hmin (k + 1 + 1) (by omega)
  have e1 := h.le k (by omega)
  have e2 := h.le (k + 1 + 1) (by omega)
  have d0 := h.down k (by omega)
  have d1 := h.up (k + 1) (by omega)
  have d2 := h.up k (by omega)
  have d3 := h.down (k + 1) (by omega)
  have n1 := h.nonneg (k + 1) (by omega)
  have g1 : at_ q (k + 1) + 2 ≤ at_ q k + at_ l (k + 1) := by
    by_contra hg
    have : at_ q (k + 1) = at_ q k + at_ l (k + 1) := by omega
    by_cases hk : at_ q k < at_ c k
    · have := m1 hk; omega
    · omega
  have g2 : at_ q (k + 1) + 2 ≤ at_ q (k + 1 + 1) + at_ l (k + 1 + 1) := by
    by_contra hg
    have : at_ q (k + 1) = at_ q (k + 1 + 1) + at_ l (k + 1 + 1) := by omega
    by_cases hk : at_ q (k + 1 + 1) < at_ c (k + 1 + 1)
    · have := m2 hk; omega
    · omega
  have hplen : p.length = q.length := by rw [hp, List.length_set]
  refine ⟨k + 1, p, hi, ⟨by omega, fun j hj => ?_, fun j hj => ?_, fun j hj => ?_, fun j hj => ?_, fun j hj => ?_, ?_, ?_⟩, ?_, ?_, hat⟩
  · rw [hat]; have := h.nonneg j hj; split <;> omega
  · rw [hat]; have := h.le j hj; split
    · rename_i e; subst e; omega
    · exact this
  · rw [hat]; have := h.par j hj; split
    · rename_i e; subst e; omega
    · exact this
  · rw [hat, hat]; have := h.up j hj
    split
    · rename_i e
      obtain rfl : j = k := by omega
      rw [if_neg (by omega)]; omega
    · split
      · rename_i e; subst e; omega
      · exact this
  · rw [hat, hat]; have := h.down j hj
    split
    · rename_i e; subst e
      rw [if_neg (by omega)]; omega
    · split
      · rename_i e
        obtain rfl : j = k := by omega
        omega
      · exact this
  · rw [hat, if_neg (by omega)]; exact h.first
  · rw [hat, if_neg (by omega)]; exact h.last
  · rw [lowerable_iff]
    simp only [Nat.add_sub_cancel]
    rw [hat (k + 1), if_pos rfl, hat k, if_neg (by omega), hat (k + 1 + 1), if_neg (by omega)]
    exact ⟨by omega, by omega, by omega, by omega, by omega⟩
  · refine ext_at (by unfold lower; rw [List.length_set]; omega) fun j hj => ?_
    rw [at_lower, hat (k + 1), if_pos rfl]
    split
    · rename_i e; rw [e.1]; omega
    · rename_i e
      rw [hat, if_neg]
      intro e'; exact e ⟨e', by omega⟩

/-- Paths at distance `2k` from the ceiling are found in pass `k`. -/
theorem weak_mem {l c : List Int} (hl : ∀ i < l.length, 1 ≤ at_ l i) (hc : ParC l c) (hcw : Weak l c c) : ∀ (k : Nat) (q : List Int), Weak l c q →
    (∑ i ∈ Finset.range l.length, (at_ c i - at_ q i) = 2 * (k : Int)) → q ∈ level l c k
  | 0, q, h, hk => by
    have : q = c := by
      refine ext_at (h.len.trans hcw.len.symm) fun i hi => ?_
      have h0 := (Finset.sum_eq_zero_iff_of_nonneg fun i hi => sub_nonneg.2 (h.le i (Finset.mem_range.1 hi))).1 (by simpa using hk)
      have := h0 i (Finset.mem_range.2 (by rw [← h.len]; exact hi))
      omega
    rw [this]; exact List.mem_singleton.2 rfl
  | k + 1, q, h, hk => by
    obtain ⟨i, p, hi, hp, hlow, rfl, hat⟩ := weak_raise hl hc hcw h (by
      by_contra hno
      have hno : ∀ i < l.length, ¬ at_ q i < at_ c i := fun i hi h' => hno ⟨i, hi, h'⟩
      have : ∑ i ∈ Finset.range l.length, (at_ c i - at_ q i) = 0 := Finset.sum_eq_zero fun i hi => by
        have h1 := hno i (Finset.mem_range.1 hi)
        have h2 := h.le i (Finset.mem_range.1 hi)
        omega
      rw [this] at hk
      push_cast at hk
      omega)
    refine mem_next.2 ⟨p, weak_mem hl hc hcw k p hp ?_, i, hi, hlow, rfl⟩
    have : ∀ j ∈ Finset.range l.length, at_ c j - at_ p j = (at_ c j - at_ (lower p i) j) - if j = i then 2 else 0 := by
      intro j _
      rw [hat j]
      split
      · rename_i e; subst e; ring
      · ring
    rw [Finset.sum_congr rfl this, Finset.sum_sub_distrib, hk, Finset.sum_ite_eq' (Finset.range l.length) i, if_pos (Finset.mem_range.2 hi)]
    push_cast; ring

/-! ### The ceiling -/

theorem sum_take_succ (l : List Int) (i : Nat) (hi : i < l.length) : (l.take (i + 1)).sum = (l.take i).sum + at_ l i := by
  rw [List.take_add_one, List.sum_append]
  unfold at_
  simp [hi]

theorem sum_drop (l : List Int) (i : Nat) : (l.drop i).sum = l.sum - (l.take i).sum := by
  have := congrArg List.sum (List.take_append_drop i l)
  rw [List.sum_append] at this
  omega

theorem at_ceiling {l : List Int} {g : Int} {i : Nat} (hi : i < l.length) :
    at_ (ceiling l g) i = min (l.take (i + 1)).sum (g + (l.sum - (l.take (i + 1)).sum)) := by
  unfold at_ ceiling leftCeil rightCeil
  simp [hi, sum_drop]

theorem take_nonneg {l : List Int} (hl : ∀ i < l.length, 0 ≤ at_ l i) : ∀ i, i ≤ l.length → 0 ≤ (l.take i).sum
  | 0, _ => by simp
  | i + 1, hi => by
    rw [sum_take_succ l i (by omega)]
    have := take_nonneg hl i (by omega)
    have := hl i (by omega)
    omega

theorem take_le {l : List Int} (hl : ∀ i < l.length, 0 ≤ at_ l i) (n : Nat) : ∀ k, n + k ≤ l.length → (l.take n).sum ≤ (l.take (n + k)).sum
  | 0, _ => by simp
  | k + 1, hi => by
    rw [← Nat.add_assoc, sum_take_succ l (n + k) (by omega)]
    have := take_le hl n k (by omega)
    have := hl (n + k) (by omega)
    omega

theorem ceiling_par {l : List Int} {g : Int} (hg : (l.sum + g) % 2 = 0) : ParC l (ceiling l g) := by
  intro i hi
  rw [at_ceiling hi, at_ceiling (by omega), sum_take_succ l (i + 1) hi]
  omega

theorem ceiling_weak {l : List Int} {g : Int} (hl : ∀ i < l.length, 0 ≤ at_ l i) (hg : 0 ≤ g) : Weak l (ceiling l g) (ceiling l g) := by
  refine ⟨by unfold ceiling; simp, fun i hi => ?_, fun i hi => le_rfl, fun i hi => by simp, fun i hi => ?_, fun i hi => ?_, rfl, rfl⟩
  · rw [at_ceiling hi]
    have h1 := take_nonneg hl (i + 1) (by omega)
    have h2 := take_le hl (i + 1) (l.length - (i + 1)) (by omega)
    rw [show i + 1 + (l.length - (i + 1)) = l.length by omega, List.take_length] at h2
    omega
  · rw [at_ceiling hi, at_ceiling (by omega), sum_take_succ l (i + 1) hi]
    have := hl (i + 1) hi
    omega
  · rw [at_ceiling hi, at_ceiling (by omega), sum_take_succ l (i + 1) hi]
    have := hl (i + 1) hi
    omega

/-- The number of passes suffices. -/
theorem fuel_enough (smults : List Nat) (hm : ∀ m ∈ smults, 2 ≤ m) :
    ∑ i ∈ Finset.range smults.length, ((twoS smults).take (i + 1)).sum + 2 ≤ 2 * (smults.prod : Int) ∧
      (twoS smults).sum + 1 ≤ (smults.prod : Int) := by
  induction smults using List.reverseRecOn with
  | nil => simp [twoS]
  | append_singleton L m ih =>
    have hm1 : 2 ≤ m := hm m (by simp)
    obtain ⟨h1, h2⟩ := ih fun x hx => hm x (by simp [hx])
    have e1 : twoS (L ++ [m]) = twoS L ++ [(m : Int) - 1] := by simp [twoS]
    have e2 : (twoS L).length = L.length := by simp [twoS]
    have e3 : ∀ i ∈ Finset.range L.length, ((twoS (L ++ [m])).take (i + 1)).sum = ((twoS L).take (i + 1)).sum := by
      intro i hi
      have hi := Finset.mem_range.1 hi
      rw [e1, List.take_append_of_le_length (by omega)]
    have e4 : ((twoS (L ++ [m])).take (L.length + 1)).sum = (twoS L).sum + ((m : Int) - 1) := by
      rw [e1, List.take_of_length_le (by simp [e2])]
      simp
    rw [List.length_append, List.length_singleton, Finset.sum_range_succ, Finset.sum_congr rfl e3, e4, e1]
    simp only [List.sum_append, List.sum_singleton, List.prod_append, List.prod_singleton]
    push_cast
    have hm2 : (2 : Int) ≤ m := by exact_mod_cast hm1
    have hP : (1 : Int) ≤ L.prod := by
      have : 0 ≤ (twoS L).sum := by
        apply List.sum_nonneg
        intro x hx
        unfold twoS at hx
        obtain ⟨a, ha, rfl⟩ := List.mem_map.1 hx
        have := hm a (by simp [ha])
        omega
      omega
    constructor
    · nlinarith
    · nlinarith

end Verif.GenCoup
