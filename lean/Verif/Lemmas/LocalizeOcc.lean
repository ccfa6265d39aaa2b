import Verif.Model.LocalizeOcc
import Verif.Spec.LocalizeOcc
import Verif.Spec.LasCanon
import Mathlib.Data.Finset.Card
import Mathlib.Algebra.Order.BigOperators.Group.Finset
import Mathlib.Tactic.Linarith
import Mathlib.Tactic.Ring
/-!
# Lemmas for C125
-/
namespace Verif.LocalizeOcc
open Verif.Spec.LasCanon (SortContract)

theorem count_map_range (f : Nat → Nat) (m n : Nat) :
    ((List.range n).map f).count m = ((Finset.range n).filter fun i => f i = m).card := by
  induction n with
  | zero => simp
  | succ n ih =>
    rw [List.range_succ, List.map_append, List.count_append, ih, Finset.range_add_one, Finset.filter_insert]
    by_cases h : f n = m
    · rw [if_pos h, Finset.card_insert_of_notMem (by simp)]; simp [h]
    · rw [if_neg h]; simp [h]

/-- A permutation does not change how many elements have a property. -/
theorem card_perm {n : Nat} {π : Nat → Nat} (h1 : ∀ a < n, π a < n) (h2 : ∀ a < n, ∀ b < n, π a = π b → a = b) (P : Nat → Prop)
    [DecidablePred P] : ((Finset.range n).filter fun i => P (π i)).card = ((Finset.range n).filter P).card := by
  have himg : (Finset.range n).image π = Finset.range n := by
    apply Finset.eq_of_subset_of_card_le
    · intro x hx
      obtain ⟨a, ha, rfl⟩ := Finset.mem_image.1 hx
      exact Finset.mem_range.2 (h1 a (Finset.mem_range.1 ha))
    · rw [Finset.card_image_of_injOn fun a ha b hb => h2 a (Finset.mem_range.1 ha) b (Finset.mem_range.1 hb)]
  refine Finset.card_bij (fun i _ => π i) (fun i hi => ?_) (fun a ha b hb => ?_) fun b hb => ?_
  · rw [Finset.mem_filter] at hi ⊢
    exact ⟨Finset.mem_range.2 (h1 i (Finset.mem_range.1 hi.1)), hi.2⟩
  · exact h2 a (Finset.mem_range.1 (Finset.mem_filter.1 ha).1) b (Finset.mem_range.1 (Finset.mem_filter.1 hb).1)
  · rw [Finset.mem_filter] at hb
    have := hb.1
    rw [← himg] at this
    obtain ⟨a, ha, rfl⟩ := Finset.mem_image.1 this
    exact ⟨a, Finset.mem_filter.2 ⟨ha, hb.2⟩, rfl⟩

/-- A set that contains with a position all before it consists of the first positions. -/
theorem top_iff {n c : Nat} (P : Nat → Prop) [DecidablePred P] (hd : ∀ i j, i ≤ j → j < n → P j → P i)
    (hc : ((Finset.range n).filter P).card = c) : ∀ j < n, P j ↔ j < c := by
  intro j hj
  constructor
  · intro h
    have : Finset.range (j + 1) ⊆ (Finset.range n).filter P := by
      intro i hi
      have hi := Finset.mem_range.1 hi
      exact Finset.mem_filter.2 ⟨Finset.mem_range.2 (by omega), hd i j (by omega) hj h⟩
    have := Finset.card_le_card this
    rw [Finset.card_range, hc] at this
    omega
  · intro h
    by_contra hn
    have : (Finset.range n).filter P ⊆ Finset.range j := by
      intro i hi
      obtain ⟨h1, h2⟩ := Finset.mem_filter.1 hi
      by_contra h3
      have h3 : ¬ i < j := fun h => h3 (Finset.mem_range.2 h)
      exact hn (hd j i (by omega) (Finset.mem_range.1 h1) h2)
    have := Finset.card_le_card this
    rw [Finset.card_range, hc] at this
    omega

theorem card_split (a b : Nat) (P : Nat → Prop) [DecidablePred P] :
    ((Finset.range (a + b)).filter P).card = ((Finset.range a).filter P).card + ((Finset.range b).filter fun i => P (a + i)).card := by
  induction b with
  | zero => simp
  | succ b ih =>
    rw [← Nat.add_assoc, Finset.range_add_one, Finset.filter_insert, Finset.range_add_one, Finset.filter_insert]
    by_cases h : P (a + b)
    · rw [if_pos h, if_pos h, Finset.card_insert_of_notMem (by simp), Finset.card_insert_of_notMem (by simp), ih]; omega
    · rw [if_neg h, if_neg h, ih]

section
variable {K : Type} [Field K] [LinearOrder K] (nao : Nat) (occ : List Nat)

theorem cls_0 {i : Nat} (h : i < nsv nao occ 0) : cls nao occ i = 0 := by unfold cls; rw [if_pos h]
theorem cls_1 {i : Nat} (h : i < nsv nao occ 1) : cls nao occ (nsv nao occ 0 + i) = 1 := by
  unfold cls; rw [if_neg (by omega), if_pos (by omega)]
theorem cls_2 (i : Nat) : cls nao occ (nsv nao occ 0 + nsv nao occ 1 + i) = 2 := by
  unfold cls; rw [if_neg (by omega), if_neg (by omega)]

theorem all_0 (w : Nat → Nat → K) {i : Nat} (h : i < nsv nao occ 0) : allSv nao occ w i = w 0 i := by unfold allSv; rw [if_pos h]
theorem all_1 (w : Nat → Nat → K) {i : Nat} (h : i < nsv nao occ 1) : allSv nao occ w (nsv nao occ 0 + i) = w 1 i := by
  unfold allSv; rw [if_neg (by omega), if_pos (by omega), Nat.add_sub_cancel_left]
theorem all_2 (w : Nat → Nat → K) (i : Nat) : allSv nao occ w (nsv nao occ 0 + nsv nao occ 1 + i) = w 2 i := by
  unfold allSv; rw [if_neg (by omega), if_neg (by omega), Nat.add_sub_cancel_left]

/-- Counting by classes. -/
theorem card_classes (P : Nat → K → Prop) [∀ a b, Decidable (P a b)] (w : Nat → Nat → K) :
    ((Finset.range (total nao occ)).filter fun i => P (cls nao occ i) (allSv nao occ w i)).card =
    ((Finset.range (nsv nao occ 0)).filter fun i => P 0 (w 0 i)).card + ((Finset.range (nsv nao occ 1)).filter fun i => P 1 (w 1 i)).card +
    ((Finset.range (nsv nao occ 2)).filter fun i => P 2 (w 2 i)).card := by
  unfold total
  rw [card_split, card_split]
  congr 1
  · congr 1
    · refine congrArg Finset.card (Finset.filter_congr fun i hi => ?_)
      rw [cls_0 nao occ (Finset.mem_range.1 hi), all_0 nao occ w (Finset.mem_range.1 hi)]
    · refine congrArg Finset.card (Finset.filter_congr fun i hi => ?_)
      rw [cls_1 nao occ (Finset.mem_range.1 hi), all_1 nao occ w (Finset.mem_range.1 hi)]
  · refine congrArg Finset.card (Finset.filter_congr fun i _ => ?_)
    rw [cls_2, all_2]

/-- The list which `_svd` returns has the same occupations. -/
theorem svdOcc_count {argsort : Nat → (Nat → K) → Nat → Nat} (hs : SortContract argsort) {rng : Nat → Int × Int} {sv : Nat → Nat → K}
    {l : List Nat} (h : svdOcc argsort nao occ rng sv = some l) {m : Nat} (hm : m = 0 ∨ m = 1 ∨ m = 2) : l.count m = occ.count m := by
  unfold svdOcc at h
  simp only at h
  split at h
  · exact absurd h (by simp)
  injection h with h
  subst h
  simp only [List.count_append, List.count_replicate]
  rw [count_map_range, card_perm (hs _ _).1 (hs _ _).2.1 fun i => cls nao occ i = m]
  have := card_classes (K := K) nao occ (fun a _ => a = m) (fun _ _ => 0)
  rw [this]
  have h0 : nsv nao occ 0 ≤ occ.count 0 := Nat.min_le_right _ _
  have h1 : nsv nao occ 1 ≤ occ.count 1 := Nat.min_le_right _ _
  have h2 : nsv nao occ 2 ≤ occ.count 2 := Nat.min_le_right _ _
  rcases hm with rfl | rfl | rfl
  · simp; omega
  · simp; omega
  · simp; omega

theorem svdOcc_length {argsort : Nat → (Nat → K) → Nat → Nat} {rng : Nat → Int × Int} {sv : Nat → Nat → K}
    {l : List Nat} (h : svdOcc argsort nao occ rng sv = some l) : l.length = occ.count 0 + occ.count 1 + occ.count 2 := by
  unfold svdOcc at h
  simp only at h
  split at h
  · exact absurd h (by simp)
  injection h with h
  subst h
  simp only [List.length_append, List.length_map, List.length_range, List.length_replicate, total]
  have h0 : nsv nao occ 0 ≤ occ.count 0 := Nat.min_le_right _ _
  have h1 : nsv nao occ 1 ≤ occ.count 1 := Nat.min_le_right _ _
  have h2 : nsv nao occ 2 ≤ occ.count 2 := Nat.min_le_right _ _
  omega

variable [IsStrictOrderedRing K]

/-- Equal limits raise the first values and lower the others. -/
theorem shiftBy_eq {k n : Nat} (hn : n ≤ k) (sv : Nat → K) {i : Nat} (hi : i < k) :
    shiftBy k ((n : Int), (n : Int)) sv i = if i < n then sv i + 1 else sv i - 1 := by
  unfold shiftBy
  simp only [Int.natCast_nonneg, if_true, true_and, Int.toNat_natCast]
  by_cases h : i < n
  · rw [if_pos h]
    split
    · beta_reduce; rw [if_neg (by omega), if_pos (by omega)]
    · beta_reduce; rw [if_pos (by omega)]
  · rw [if_neg h, if_pos (by omega)]
    beta_reduce
    rw [if_pos (by omega), if_neg (by omega)]

theorem shiftBy_none (k : Nat) (sv : Nat → K) : shiftBy k (-1, -1) sv = sv := by
  unfold shiftBy
  simp

theorem shift_card {argsort : Nat → (Nat → K) → Nat → Nat} (hs : SortContract argsort) (k : Nat) (rng : Int × Int) (sv : Nat → K)
    (P : K → Prop) [DecidablePred P] : ((Finset.range k).filter fun i => P (shiftSvals argsort k rng sv i)).card =
      ((Finset.range k).filter fun i => P (shiftBy k rng (fun i => sv (argsort k (fun i => -sv i) i)) i)).card :=
  card_perm (hs _ _).1 (hs _ _).2.1 fun i => P (shiftBy k rng (fun i => sv (argsort k (fun i => -sv i) i)) i)

theorem card_lt_filter {k n : Nat} (hn : n ≤ k) : ((Finset.range k).filter fun i => i < n).card = n := by
  have : (Finset.range k).filter (fun i => i < n) = Finset.range n := by
    ext i; simp only [Finset.mem_filter, Finset.mem_range]; omega
  rw [this, Finset.card_range]

/-- With equal limits, values are above one or below zero. -/
theorem shift_values {argsort : Nat → (Nat → K) → Nat → Nat} (hs : SortContract argsort) {k n : Nat} (hn : n ≤ k) (sv : Nat → K)
    (hsv : ∀ i < k, 0 < sv i ∧ sv i < 1) {i : Nat} (hi : i < k) :
    1 < shiftSvals argsort k ((n : Int), (n : Int)) sv i ∨ shiftSvals argsort k ((n : Int), (n : Int)) sv i < 0 := by
  unfold shiftSvals
  rw [shiftBy_eq hn _ ((hs _ _).1 i hi)]
  have := hsv _ ((hs k fun i => -sv i).1 _ ((hs k (fun i => -shiftBy k ((n : Int), (n : Int))
    (fun i => sv (argsort k (fun i => -sv i) i)) i)).1 i hi))
  split
  · left; linarith [this.1]
  · right; linarith [this.2]

theorem shift_above {argsort : Nat → (Nat → K) → Nat → Nat} (hs : SortContract argsort) {k n : Nat} (hn : n ≤ k) (sv : Nat → K)
    (hsv : ∀ i < k, 0 < sv i ∧ sv i < 1) (t : K) (ht : 0 ≤ t) (ht' : t ≤ 1) :
    ((Finset.range k).filter fun i => t < shiftSvals argsort k ((n : Int), (n : Int)) sv i).card = n := by
  rw [shift_card hs k _ sv fun x => t < x]
  refine Eq.trans (congrArg Finset.card (Finset.filter_congr fun i hi => ?_)) (card_lt_filter hn)
  have hi := Finset.mem_range.1 hi
  rw [shiftBy_eq hn _ hi]
  have := hsv _ ((hs k fun i => -sv i).1 i hi)
  by_cases h : i < n
  · rw [if_pos h]
    exact ⟨fun _ => h, fun _ => by linarith [this.1]⟩
  · rw [if_neg h]
    exact ⟨fun h' => absurd h' (by linarith [this.2]), fun h' => absurd h' h⟩

theorem shift_free {argsort : Nat → (Nat → K) → Nat → Nat} (hs : SortContract argsort) {k : Nat} (sv : Nat → K)
    (hsv : ∀ i < k, 0 < sv i ∧ sv i < 1) {i : Nat} (hi : i < k) :
    0 < shiftSvals argsort k (-1, -1) sv i ∧ shiftSvals argsort k (-1, -1) sv i < 1 := by
  unfold shiftSvals
  simp only [shiftBy_none]
  exact hsv _ ((hs _ _).1 _ ((hs _ _).1 _ hi))

/-- The first orbitals contain exactly as many singly and doubly occupied ones as the limits say. -/
theorem svdOcc_first {argsort : Nat → (Nat → K) → Nat → Nat} (hs : SortContract argsort) {rng : Nat → Int × Int} {sv : Nat → Nat → K}
    {l : List Nat} (h : svdOcc argsort nao occ rng sv = some l) {s d nlas : Nat} (h0 : rng 0 = (-1, -1)) (h1 : rng 1 = ((s : Int), (s : Int)))
    (h2 : rng 2 = ((d : Int), (d : Int))) (hs' : s ≤ nsv nao occ 1) (hd : d ≤ nsv nao occ 2) (hlo : d + s ≤ nlas)
    (hhi : nlas ≤ d + s + nsv nao occ 0) (hsv : ∀ m i, 0 < sv m i ∧ sv m i < 1) :
    (l.take nlas).count 1 = s ∧ (l.take nlas).count 2 = d := by
  unfold svdOcc at h
  simp only at h
  split at h
  · exact absurd h (by simp)
  injection h with h
  subst h
  set w : Nat → Nat → K := fun m => shiftSvals argsort (nsv nao occ m) (rng m) (sv m) with hw
  set A := allSv nao occ w with hA
  set n := total nao occ with hn
  set π := argsort n (fun i => -A i) with hπ
  have hnn : n = nsv nao occ 0 + nsv nao occ 1 + nsv nao occ 2 := rfl
  have hln : nlas ≤ n := by omega
  obtain ⟨p1, p2, p3⟩ := hs n (fun i => -A i)
  have w0 : ∀ i < nsv nao occ 0, 0 < w 0 i ∧ w 0 i < 1 := by
    intro i hi
    simp only [hw, h0]
    exact shift_free hs _ (fun i _ => hsv 0 i) hi
  have w1 : ∀ i < nsv nao occ 1, 1 < w 1 i ∨ w 1 i < 0 := by
    intro i hi
    simp only [hw, h1]
    exact shift_values hs hs' _ (fun i _ => hsv 1 i) hi
  have w2 : ∀ i < nsv nao occ 2, 1 < w 2 i ∨ w 2 i < 0 := by
    intro i hi
    simp only [hw, h2]
    exact shift_values hs hd _ (fun i _ => hsv 2 i) hi
  have c1 : ∀ t : K, 0 ≤ t → t ≤ 1 → ((Finset.range (nsv nao occ 1)).filter fun i => t < w 1 i).card = s := by
    intro t ht ht'
    simp only [hw, h1]
    exact shift_above hs hs' _ (fun i _ => hsv 1 i) t ht ht'
  have c2 : ∀ t : K, 0 ≤ t → t ≤ 1 → ((Finset.range (nsv nao occ 2)).filter fun i => t < w 2 i).card = d := by
    intro t ht ht'
    simp only [hw, h2]
    exact shift_above hs hd _ (fun i _ => hsv 2 i) t ht ht'
  have z1 : ((Finset.range (nsv nao occ 0)).filter fun i => 1 < w 0 i).card = 0 := by
    rw [Finset.card_eq_zero, Finset.filter_eq_empty_iff]
    intro i hi
    exact not_lt.2 (w0 i (Finset.mem_range.1 hi)).2.le
  have z0 : ((Finset.range (nsv nao occ 0)).filter fun i => 0 < w 0 i).card = nsv nao occ 0 := by
    rw [Finset.filter_true_of_mem fun i hi => (w0 i (Finset.mem_range.1 hi)).1, Finset.card_range]
  have a1 : ((Finset.range n).filter fun i => 1 < A (π i)).card = d + s := by
    rw [card_perm p1 p2 fun i => 1 < A i]
    have := card_classes nao occ (fun _ x => 1 < x) w
    rw [z1, c1 1 zero_le_one le_rfl, c2 1 zero_le_one le_rfl] at this
    rw [hA, hn, this]; omega
  have a0 : ((Finset.range n).filter fun i => 0 < A (π i)).card = d + s + nsv nao occ 0 := by
    rw [card_perm p1 p2 fun i => 0 < A i]
    have := card_classes nao occ (fun _ x => 0 < x) w
    rw [z0, c1 0 le_rfl zero_le_one, c2 0 le_rfl zero_le_one] at this
    rw [hA, hn, this]; omega
  have t1 := top_iff (fun i => 1 < A (π i)) (fun i j hij hj hP => lt_of_lt_of_le hP (neg_le_neg_iff.1 (p3 i j hij hj))) a1
  have t0 := top_iff (fun i => 0 < A (π i)) (fun i j hij hj hP => lt_of_lt_of_le hP (neg_le_neg_iff.1 (p3 i j hij hj))) a0
  have jump : ∀ i < n, cls nao occ i ≠ 0 → 0 < A i → 1 < A i := by
    intro i hi hc hp
    by_cases h3 : i < nsv nao occ 0
    · exact absurd (cls_0 nao occ h3) hc
    by_cases h4 : i < nsv nao occ 0 + nsv nao occ 1
    · obtain ⟨j, rfl⟩ : ∃ j, i = nsv nao occ 0 + j := ⟨i - nsv nao occ 0, by omega⟩
      rw [hA, all_1 nao occ w (by omega)] at hp ⊢
      rcases w1 j (by omega) with h | h
      · exact h
      · exact absurd hp (not_lt.2 h.le)
    · obtain ⟨j, rfl⟩ : ∃ j, i = nsv nao occ 0 + nsv nao occ 1 + j := ⟨i - (nsv nao occ 0 + nsv nao occ 1), by omega⟩
      rw [hA, all_2 nao occ w] at hp ⊢
      rcases w2 j (by omega) with h | h
      · exact h
      · exact absurd hp (not_lt.2 h.le)
  have key : ∀ m, m ≠ 0 → ((List.range nlas).map fun i => cls nao occ (π i)).count m =
      ((Finset.range n).filter fun i => cls nao occ i = m ∧ 1 < A i).card := by
    intro m hm
    rw [count_map_range, ← card_perm p1 p2 fun i => cls nao occ i = m ∧ 1 < A i]
    refine congrArg Finset.card (Finset.ext fun j => ?_)
    simp only [Finset.mem_filter, Finset.mem_range]
    constructor
    · rintro ⟨hj, hc⟩
      exact ⟨by omega, hc, jump _ (p1 j (by omega)) (by rw [hc]; exact hm) ((t0 j (by omega)).2 (by omega))⟩
    · rintro ⟨hj, hc, hp⟩
      exact ⟨by have := (t1 j hj).1 hp; omega, hc⟩
  have htake : ∀ b : List Nat, ((List.range n).map (fun i => cls nao occ (π i)) ++ b).take nlas =
      (List.range nlas).map fun i => cls nao occ (π i) := by
    intro b
    rw [List.take_append_of_le_length (by simp; exact hln), ← List.map_take, List.take_range, Nat.min_eq_left hln]
  rw [List.append_assoc, List.append_assoc, htake, key 1 (by omega), key 2 (by omega)]
  constructor
  · have := card_classes nao occ (fun a x => a = 1 ∧ 1 < x) w
    simp only [true_and, false_and, OfNat.ofNat_ne_one, OfNat.zero_ne_ofNat, zero_ne_one, Finset.filter_false, Finset.card_empty,
      c1 1 zero_le_one le_rfl] at this
    rw [hA, hn, this]; omega
  · have := card_classes nao occ (fun a x => a = 2 ∧ 1 < x) w
    simp only [true_and, false_and, OfNat.one_ne_ofNat, OfNat.zero_ne_ofNat, Finset.filter_false, Finset.card_empty,
      c2 1 zero_le_one le_rfl] at this
    rw [hA, hn, this]; omega

end
end Verif.LocalizeOcc
