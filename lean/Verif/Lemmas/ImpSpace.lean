import Verif.Spec.ImpSpace
import Mathlib.Algebra.BigOperators.Ring.Finset
import Mathlib.Algebra.BigOperators.Ring.List
import Mathlib.Algebra.BigOperators.Intervals
import Mathlib.Tactic.Ring
/-! # Lemmas for C128 -/
namespace Verif.ImpSpace
open Verif.Spec.ImpSpace

variable {K : Type} [Field K] [LinearOrder K]

theorem dot_comm (n : Nat) (v w : Orb K) : dot n v w = dot n w v := Finset.sum_congr rfl fun _ _ => mul_comm _ _

theorem rot_dot (n : Nat) (eo : List (Orb K)) (u : Nat → Nat → K) (k : Nat) (w : Orb K) :
    dot n (rot eo u k) w = ∑ j ∈ Finset.range eo.length, u j k * dot n (col eo j) w := by
  unfold dot rot
  simp only [Finset.sum_mul, Finset.mul_sum]
  rw [Finset.sum_comm]
  exact Finset.sum_congr rfl fun j _ => Finset.sum_congr rfl fun i _ => by ring

theorem dot_rot (n : Nat) (eo : List (Orb K)) (u : Nat → Nat → K) (k : Nat) (w : Orb K) :
    dot n w (rot eo u k) = ∑ j ∈ Finset.range eo.length, u j k * dot n w (col eo j) := by
  rw [dot_comm, rot_dot]
  exact Finset.sum_congr rfl fun j _ => by rw [dot_comm]

theorem col_mem {l : List (Orb K)} {j : Nat} (h : j < l.length) : col l j ∈ l := by
  unfold col
  rw [show l.getD j (fun _ => 0) = l[j] by simp [h]]
  exact List.getElem_mem h

theorem on_col {n : Nat} {l : List (Orb K)} (h : Orthonormal n l) {i j : Nat} (hi : i < l.length) (hj : j < l.length) :
    dot n (col l i) (col l j) = if i = j then 1 else 0 := by
  by_cases e : i = j
  · rw [if_pos e, e]
    exact h.2 _ (col_mem hj)
  · rw [if_neg e]
    have hp := List.pairwise_iff_getElem.1 h.1
    have c : ∀ k (hk : k < l.length), col l k = l[k] := fun k hk => by simp [col, hk]
    rw [c i hi, c j hj]
    rcases Nat.lt_or_gt_of_ne e with h' | h'
    · exact hp i j hi hj h'
    · rw [dot_comm]
      exact hp j i hj hi h'

theorem list_sum_col {M : Type} [AddCommMonoid M] (l : List (Orb K)) (f : Orb K → M) : (l.map f).sum = ∑ j ∈ Finset.range l.length, f (col l j) := by
  induction l with
  | nil => simp
  | cons a l ih =>
    rw [List.map_cons, List.sum_cons, List.length_cons, Finset.sum_range_succ', ih, add_comm]
    rfl

theorem rot_rot {n : Nat} {eo : List (Orb K)} {u : Nat → Nat → K} (h : Orthonormal n eo)
    (hc : ∀ p < eo.length, ∀ q < eo.length, ∑ j ∈ Finset.range eo.length, u j p * u j q = if p = q then 1 else 0)
    {p q : Nat} (hp : p < eo.length) (hq : q < eo.length) : dot n (rot eo u p) (rot eo u q) = if p = q then 1 else 0 := by
  rw [← hc p hp q hq, rot_dot]
  refine Finset.sum_congr rfl fun j hj => ?_
  rw [dot_rot]
  congr 1
  rw [Finset.sum_eq_single j]
  · rw [on_col h (Finset.mem_range.1 hj) (Finset.mem_range.1 hj), if_pos rfl, mul_one]
  · intro i hi hij
    rw [on_col h (Finset.mem_range.1 hj) (Finset.mem_range.1 hi), if_neg hij.symm, mul_zero]
  · intro h'; exact absurd hj h'

theorem on_append {n : Nat} {a b : List (Orb K)} : Orthonormal n (a ++ b) ↔ Orthonormal n a ∧ Orthonormal n b ∧ ∀ v ∈ a, ∀ w ∈ b, dot n v w = 0 := by
  unfold Orthonormal
  rw [List.pairwise_append]
  simp only [List.mem_append]
  constructor
  · rintro ⟨⟨h1, h2, h3⟩, h4⟩
    exact ⟨⟨h1, fun v hv => h4 v (Or.inl hv)⟩, ⟨h2, fun v hv => h4 v (Or.inr hv)⟩, h3⟩
  · rintro ⟨⟨h1, h2⟩, ⟨h3, h4⟩, h5⟩
    exact ⟨⟨h1, h3, h5⟩, fun v hv => hv.elim (h2 v) (h4 v)⟩

theorem on_sel {n : Nat} {eo : List (Orb K)} {u : Nat → Nat → K} (h : Orthonormal n eo)
    (hc : ∀ p < eo.length, ∀ q < eo.length, ∑ j ∈ Finset.range eo.length, u j p * u j q = if p = q then 1 else 0) {l : List Nat} (hl : l.Nodup)
    (hr : ∀ k ∈ l, k < eo.length) : Orthonormal n (l.map (rot eo u)) := by
  refine ⟨?_, fun v hv => ?_⟩
  · rw [List.pairwise_map]
    refine hl.imp_of_mem fun {a b} ha hb hab => ?_
    rw [rot_rot h hc (hr a ha) (hr b hb), if_neg hab]
  · obtain ⟨k, hk, rfl⟩ := List.mem_map.1 hv
    rw [rot_rot h hc (hr k hk) (hr k hk), if_pos rfl]

theorem sel_nodup (m : Nat) (f : Nat → Bool) : ((List.range m).filter f).Nodup ∧ ∀ k ∈ (List.range m).filter f, k < m :=
  ⟨List.nodup_range.filter f, fun _ hk => List.mem_range.1 (List.mem_filter.1 hk).1⟩

theorem perp_rot {n : Nat} {eo : List (Orb K)} (u : Nat → Nat → K) (k : Nat) {v : Orb K} (h : ∀ w ∈ eo, dot n v w = 0) : dot n v (rot eo u k) = 0 := by
  rw [dot_rot]
  exact Finset.sum_eq_zero fun j hj => by rw [h _ (col_mem (Finset.mem_range.1 hj)), mul_zero]

theorem on_divide {n : Nat} {fo eo : List (Orb K)} {u : Nat → Nat → K} (idx : Nat → Bool) (h : Orthonormal n (fo ++ eo))
    (hc : ∀ p < eo.length, ∀ q < eo.length, ∑ j ∈ Finset.range eo.length, u j p * u j q = if p = q then 1 else 0) :
    Orthonormal n ((divide fo eo u idx).1 ++ (divide fo eo u idx).2) := by
  obtain ⟨h1, h2, h3⟩ := on_append.1 h
  obtain ⟨a1, a2⟩ := sel_nodup eo.length idx
  obtain ⟨b1, b2⟩ := sel_nodup eo.length fun k => !idx k
  refine on_append.2 ⟨on_append.2 ⟨h1, on_sel h2 hc a1 a2, ?_⟩, on_sel h2 hc b1 b2, ?_⟩
  · intro v hv w hw
    obtain ⟨k, -, rfl⟩ := List.mem_map.1 hw
    exact perp_rot u k (h3 v hv)
  · intro v hv w hw
    obtain ⟨k, hk, rfl⟩ := List.mem_map.1 hw
    rcases List.mem_append.1 hv with hv | hv
    · exact perp_rot u k (h3 v hv)
    · obtain ⟨l, hl, rfl⟩ := List.mem_map.1 hv
      rw [rot_rot h2 hc (a2 l hl) (b2 k hk), if_neg]
      rintro rfl
      have := (List.mem_filter.1 hk).2
      rw [(List.mem_filter.1 hl).2] at this
      exact absurd this (by decide)

theorem proj_append (n : Nat) (a b : List (Orb K)) (v w : Orb K) : proj n (a ++ b) v w = proj n a v w + proj n b v w := by
  simp [proj]

theorem proj_rotAll {n : Nat} {eo : List (Orb K)} {u : Nat → Nat → K}
    (hr : ∀ p < eo.length, ∀ q < eo.length, ∑ j ∈ Finset.range eo.length, u p j * u q j = if p = q then 1 else 0) (v w : Orb K) :
    ∑ k ∈ Finset.range eo.length, dot n v (rot eo u k) * dot n (rot eo u k) w = proj n eo v w := by
  unfold proj
  rw [list_sum_col]
  simp only [dot_rot, rot_dot, Finset.sum_mul_sum]
  rw [Finset.sum_comm]
  refine Finset.sum_congr rfl fun i hi => ?_
  rw [Finset.sum_comm]
  rw [Finset.sum_eq_single i]
  · have := hr i (Finset.mem_range.1 hi) i (Finset.mem_range.1 hi)
    rw [if_pos rfl] at this
    calc _ = (∑ k ∈ Finset.range eo.length, u i k * u i k) * (dot n v (col eo i) * dot n (col eo i) w) := by
            rw [Finset.sum_mul]
            exact Finset.sum_congr rfl fun k _ => by ring
      _ = _ := by rw [this, one_mul]
  · intro j hj hji
    have := hr i (Finset.mem_range.1 hi) j (Finset.mem_range.1 hj)
    rw [if_neg hji.symm] at this
    calc _ = (∑ k ∈ Finset.range eo.length, u i k * u j k) * (dot n v (col eo i) * dot n (col eo j) w) := by
            rw [Finset.sum_mul]
            exact Finset.sum_congr rfl fun k _ => by ring
      _ = 0 := by rw [this, zero_mul]
  · intro h; exact absurd hi h

theorem filter_sum (m : Nat) (idx : Nat → Bool) (f : Nat → K) :
    (((List.range m).filter idx).map f).sum + (((List.range m).filter fun k => !idx k).map f).sum = ∑ k ∈ Finset.range m, f k := by
  induction m with
  | zero => simp
  | succ m ih =>
    rw [Finset.sum_range_succ, ← ih, List.range_succ]
    cases h : idx m <;> simp [h, List.filter_append] <;> ring

theorem same_divide {n : Nat} {fo eo : List (Orb K)} {u : Nat → Nat → K} (idx : Nat → Bool)
    (hr : ∀ p < eo.length, ∀ q < eo.length, ∑ j ∈ Finset.range eo.length, u p j * u q j = if p = q then 1 else 0) :
    SameSpace n ((divide fo eo u idx).1 ++ (divide fo eo u idx).2) (fo ++ eo) := by
  intro v w
  unfold divide
  simp only [proj_append]
  rw [add_assoc, ← proj_rotAll hr v w, ← filter_sum _ idx]
  simp only [proj, List.map_map, Function.comp_def]

theorem dm_rot_left (n : Nat) (core eo : List (Orb K)) (u : Nat → Nat → K) (k : Nat) (w : Orb K) :
    dmCore n core (rot eo u k) w = ∑ j ∈ Finset.range eo.length, u j k * dmCore n core (col eo j) w := by
  unfold dmCore
  simp only [list_sum_col, rot_dot, Finset.sum_mul, Finset.mul_sum]
  rw [Finset.sum_comm]
  exact Finset.sum_congr rfl fun j _ => Finset.sum_congr rfl fun i _ => by ring

/-- The core density matrix is idempotent in any space that contains the core orbitals. -/
theorem dm_idem {n : Nat} {core l : List (Orb K)} (h : ∀ c ∈ core, ∀ d ∈ core, proj n l c d = dot n c d) (hon : Orthonormal n core) (v w : Orb K) :
    dmCore n core v w = (l.map fun z => dmCore n core v z * dmCore n core z w).sum := by
  have e : ∀ z, dmCore n core v z * dmCore n core z w = ∑ c ∈ Finset.range core.length, ∑ d ∈ Finset.range core.length,
      dot n v (col core c) * (dot n (col core c) z * dot n z (col core d)) * dot n (col core d) w := by
    intro z
    unfold dmCore
    rw [list_sum_col, list_sum_col, Finset.sum_mul_sum]
    exact Finset.sum_congr rfl fun c _ => Finset.sum_congr rfl fun d _ => by ring
  simp only [e]
  rw [list_sum_col, Finset.sum_comm]
  unfold dmCore
  rw [list_sum_col]
  refine Finset.sum_congr rfl fun c hc => ?_
  rw [Finset.sum_comm]
  have hcm := col_mem (Finset.mem_range.1 hc)
  have e2 : ∀ d ∈ Finset.range core.length, ∑ z ∈ Finset.range l.length,
      dot n v (col core c) * (dot n (col core c) (col l z) * dot n (col l z) (col core d)) * dot n (col core d) w =
      dot n v (col core c) * (if c = d then 1 else 0) * dot n (col core d) w := by
    intro d hd
    have hp := h _ hcm _ (col_mem (Finset.mem_range.1 hd))
    rw [on_col hon (Finset.mem_range.1 hc) (Finset.mem_range.1 hd), proj, list_sum_col] at hp
    rw [← hp, Finset.mul_sum, Finset.sum_mul]
  rw [Finset.sum_congr rfl e2, Finset.sum_eq_single c]
  · simp
  · intro d _ hdc; rw [if_neg hdc.symm]; ring
  · intro h'; exact absurd hc h'

end Verif.ImpSpace
