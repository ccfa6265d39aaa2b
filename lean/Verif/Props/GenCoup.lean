import Verif.Lemmas.GenCoup
import Mathlib.Algebra.BigOperators.Ring.Finset
/-!
# C126: table of genealogical couplings
-/
namespace Verif.Props
open Verif.GenCoup Verif.Spec.GenCoup

theorem gencoup_at {smults : List Nat} {i : Nat} (hi : i < smults.length) : at_ (twoS smults) i = (smults.getD i 0 : Int) - 1 := by
  unfold at_ twoS
  simp [hi]

theorem gencoup_len (smults : List Nat) : (twoS smults).length = smults.length := by simp [twoS]

theorem gencoup_pos {smults : List Nat} (hm : ∀ m ∈ smults, 2 ≤ m) : ∀ i < (twoS smults).length, 1 ≤ at_ (twoS smults) i := by
  intro i hi
  rw [gencoup_len] at hi
  rw [gencoup_at hi]
  have : smults.getD i 0 = smults[i] := by simp [hi]
  rw [this]
  have := hm _ (List.getElem_mem hi)
  omega

/-- What the couplings satisfy along the path. -/
theorem gencoup_sums {smults : List Nat} {smult : Nat} {p : List Int} (h : IsCoupling smults smult p) :
    ∀ i < smults.length, at_ p i ≤ ((twoS smults).take (i + 1)).sum ∧ (((twoS smults).take (i + 1)).sum - at_ p i) % 2 = 0
  | 0, hi => by
    have h0 := h.first
    rw [sum_take_succ _ 0 (by rw [gencoup_len]; exact hi), gencoup_at hi, ← h0]
    simp [at_]
  | i + 1, hi => by
    obtain ⟨h1, h2⟩ := gencoup_sums h i (by omega)
    obtain ⟨t1, t2, t3⟩ := h.step i hi
    rw [sum_take_succ _ (i + 1) (by rw [gencoup_len]; exact hi), gencoup_at hi]
    unfold at_ at h1 h2 ⊢
    omega

theorem gencoup_back {smults : List Nat} {smult : Nat} {p : List Int} (h : IsCoupling smults smult p) :
    ∀ k i, i + k < smults.length → at_ p i ≤ at_ p (i + k) + (((twoS smults).take (i + k + 1)).sum - ((twoS smults).take (i + 1)).sum)
  | 0, i, _ => by simp
  | k + 1, i, hi => by
    have ih := gencoup_back h k i (by omega)
    obtain ⟨t1, t2, t3⟩ := h.step (i + k) hi
    rw [show i + (k + 1) = i + k + 1 from rfl, sum_take_succ _ (i + k + 1) (by rw [gencoup_len]; omega), gencoup_at (by omega)]
    have := (abs_le.1 t1).2
    unfold at_ at ih ⊢
    omega

/-- The table and what its members have in common. -/
theorem gencoup_mem {smults : List Nat} {smult : Nat} (hm : ∀ m ∈ smults, 2 ≤ m) (h1 : 1 ≤ smult)
    (hpar : (twoS smults).sum % 2 ≠ (smult : Int) % 2) (hhi : (smult : Int) ≤ (twoS smults).sum + 1) :
    ∃ t, gencoupTable smults smult = some t ∧ ∀ p, p ∈ t ↔ Weak (twoS smults) (ceiling (twoS smults) (smult - 1)) p := by
  have hl := gencoup_pos hm
  have hl0 : ∀ i < (twoS smults).length, 0 ≤ at_ (twoS smults) i := fun i hi => by have := hl i hi; omega
  have hc := ceiling_par (l := twoS smults) (g := smult - 1) (by omega)
  have hw := ceiling_weak (l := twoS smults) (g := smult - 1) hl0 (by omega)
  refine ⟨_, if_pos ⟨hpar, hhi⟩, fun p => ?_⟩
  rw [show [ceiling (twoS smults) (smult - 1)] = level (twoS smults) (ceiling (twoS smults) (smult - 1)) 0 from rfl, mem_loop]
  constructor
  · rintro (h | ⟨j, _, h⟩)
    · exact absurd h (by simp)
    · exact weak_level hc hw _ p h
  · intro h
    have hdiv : (2 : Int) ∣ ∑ i ∈ Finset.range (twoS smults).length, (at_ (ceiling (twoS smults) (smult - 1)) i - at_ p i) :=
      Finset.dvd_sum fun i hi => Int.dvd_of_emod_eq_zero (h.par i (Finset.mem_range.1 hi))
    have hnn : 0 ≤ ∑ i ∈ Finset.range (twoS smults).length, (at_ (ceiling (twoS smults) (smult - 1)) i - at_ p i) :=
      Finset.sum_nonneg fun i hi => sub_nonneg.2 (h.le i (Finset.mem_range.1 hi))
    have hle : ∑ i ∈ Finset.range (twoS smults).length, (at_ (ceiling (twoS smults) (smult - 1)) i - at_ p i) ≤
        ∑ i ∈ Finset.range (twoS smults).length, ((twoS smults).take (i + 1)).sum := by
      refine Finset.sum_le_sum fun i hi => ?_
      have := h.nonneg i (Finset.mem_range.1 hi)
      rw [at_ceiling (Finset.mem_range.1 hi)]
      omega
    obtain ⟨x, hx⟩ := hdiv
    have hf := (fuel_enough smults hm).1
    rw [gencoup_len] at hle
    refine Or.inr ⟨x.toNat, ?_, ?_⟩
    · rw [gencoup_len] at hx hnn
      omega
    · rw [Nat.zero_add]
      refine weak_mem hl hc hw _ p h ?_
      rw [hx]
      omega

/-- C126: if no fragment is a singlet, the table contains every coupling. -/
theorem C126_complete_partial {smults : List Nat} {smult : Nat} (hm : ∀ m ∈ smults, 2 ≤ m) (hne : smults ≠ []) (h1 : 1 ≤ smult) {p : List Int}
    (hp : IsCoupling smults smult p) : ∃ t, gencoupTable smults smult = some t ∧ p ∈ t := by
  have hn : 0 < smults.length := List.length_pos_iff.2 hne
  have hlast := hp.last
  have hend := gencoup_sums hp (smults.length - 1) (by omega)
  have hfull : ((twoS smults).take (smults.length - 1 + 1)).sum = (twoS smults).sum := by
    rw [List.take_of_length_le (by rw [gencoup_len]; omega)]
  have hlast' : at_ p (smults.length - 1) = (smult : Int) - 1 := hlast
  rw [hfull, hlast'] at hend
  obtain ⟨t, ht, hmem⟩ := gencoup_mem hm h1 (by omega) (by omega)
  refine ⟨t, ht, (hmem p).2 ?_⟩
  have hlen := gencoup_len smults
  have hpos := gencoup_pos hm
  have hback : ∀ i < smults.length, at_ p i ≤ (smult : Int) - 1 + ((twoS smults).sum - ((twoS smults).take (i + 1)).sum) := by
    intro i hi
    have := gencoup_back hp (smults.length - 1 - i) i (by omega)
    rw [show i + (smults.length - 1 - i) = smults.length - 1 by omega, hlast', hfull] at this
    exact this
  have hle : ∀ i < (twoS smults).length, at_ p i ≤ at_ (ceiling (twoS smults) (smult - 1)) i := by
    intro i hi
    rw [at_ceiling hi]
    exact le_min (gencoup_sums hp i (by omega)).1 (hback i (by omega))
  refine ⟨hp.length.trans hlen.symm, fun i hi => ?_, hle, fun i hi => ?_, fun i hi => ?_, fun i hi => ?_, ?_, ?_⟩
  · rcases i with _ | i
    · have := hp.first
      have h2 := hpos 0 hi
      rw [gencoup_at (by omega)] at h2
      unfold at_
      omega
    · have := (hp.step i (by omega)).1
      exact (abs_nonneg _).trans this
  · have := (gencoup_sums hp i (by omega)).2
    rw [at_ceiling hi]
    omega
  · have := (hp.step i (by omega)).2.1
    rw [gencoup_at (by omega)]
    unfold at_
    omega
  · have := (abs_le.1 (hp.step i (by omega)).1).2
    rw [gencoup_at (by omega)]
    unfold at_
    omega
  · have h2 := hle 0 (by omega)
    have h3 : at_ p 0 = ((twoS smults).take (0 + 1)).sum := by
      rw [sum_take_succ _ 0 (by omega), gencoup_at (by omega)]
      have := hp.first
      unfold at_
      simp only [List.take_zero, List.sum_nil]
      omega
    rw [at_ceiling (by omega)] at h2 ⊢
    omega
  · have h2 := hle (smults.length - 1) (by omega)
    rw [hlen]
    rw [at_ceiling (by omega), hfull] at h2 ⊢
    omega

/-- C126: a fragment of any multiplicity but one, followed by doublets: the table consists of exactly the couplings, if there are any. -/
theorem C126_exact_partial (m k smult : Nat) (hm : 2 ≤ m) (h1 : 1 ≤ smult) (hpar : (m + k + smult) % 2 = 0) (hhi : smult ≤ m + k) (hlo : m ≤ smult + k) :
    ∃ t, gencoupTable (m :: List.replicate k 2) smult = some t ∧ ∀ p, p ∈ t ↔ IsCoupling (m :: List.replicate k 2) smult p := by
  have hm2 : ∀ x ∈ m :: List.replicate k 2, 2 ≤ x := by
    intro x hx
    rcases List.mem_cons.1 hx with rfl | hx
    · exact hm
    · rw [List.eq_of_mem_replicate hx]
  have hl : twoS (m :: List.replicate k 2) = ((m : Int) - 1) :: List.replicate k 1 := by simp [twoS]
  have hsum : (twoS (m :: List.replicate k 2)).sum = (m : Int) - 1 + k := by rw [hl]; simp
  obtain ⟨t, ht, hmem⟩ := gencoup_mem (smult := smult) hm2 h1 (by rw [hsum]; omega) (by rw [hsum]; omega)
  refine ⟨t, ht, fun p => ⟨fun h => ?_, fun h => ?_⟩⟩
  · have w := (hmem p).1 h
    have hlen := gencoup_len (m :: List.replicate k 2)
    have hk : (m :: List.replicate k 2).length = k + 1 := by simp
    have htk : ∀ i ≤ k, ((twoS (m :: List.replicate k 2)).take (i + 1)).sum = (m : Int) - 1 + i := by
      intro i hi
      rw [hl]
      simp [List.take_replicate, Nat.min_eq_left hi]
    have hone : ∀ i, i + 1 < k + 1 → at_ (twoS (m :: List.replicate k 2)) (i + 1) = 1 := by
      intro i hi
      rw [hl]
      unfold at_
      simp [show i < k by omega]
    have hpar' := ceiling_par (l := twoS (m :: List.replicate k 2)) (g := smult - 1) (by rw [hsum]; omega)
    refine ⟨w.len.trans hlen, ?_, fun i hi => ?_, ?_⟩
    · have := w.first
      rw [at_ceiling (by omega), htk 0 (by omega), hsum] at this
      change at_ p 0 = (m : Int) - 1
      push_cast at this
      omega
    · rw [hk] at hi
      have e : ((m :: List.replicate k 2).getD (i + 1) 0 : Int) - 1 = 1 := by rw [← gencoup_at (by omega), hone i hi]
      rw [e]
      have a1 := w.up i (by omega)
      have a2 := w.down i (by omega)
      have a3 := w.par i (by omega)
      have a4 := w.par (i + 1) (by omega)
      have a5 := hpar' i (by omega)
      have a6 := w.nonneg i (by omega)
      have a7 := w.nonneg (i + 1) (by omega)
      rw [hone i hi] at a1 a2 a5
      change Triangle (at_ p i) 1 (at_ p (i + 1))
      exact ⟨abs_le.2 ⟨by omega, by omega⟩, by omega, by omega⟩
    · have := w.last
      rw [hlen, hk, Nat.add_sub_cancel, at_ceiling (by omega), htk k (by omega), hsum] at this
      rw [hk, Nat.add_sub_cancel]
      change at_ p k = _
      omega
  · obtain ⟨t', ht', hp⟩ := C126_complete_partial hm2 (by simp) h1 h
    rw [ht] at ht'
    injection ht' with ht'
    rw [ht']
    exact hp

/-- Four doublets have two couplings to a singlet, both of which are in the table. -/
example : ∃ t, gencoupTable [2, 2, 2, 2] 1 = some t ∧ [1, 2, 1, 0] ∈ t ∧ [1, 0, 1, 0] ∈ t ∧ IsCoupling [2, 2, 2, 2] 1 [1, 0, 1, 0] := by
  refine ⟨[[1, 2, 1, 0], [1, 0, 1, 0]], by decide +kernel, by decide, by decide, ⟨rfl, rfl, fun i hi => ?_, rfl⟩⟩
  have hi : i + 1 < 4 := by simpa using hi
  obtain rfl | rfl | rfl : i = 0 ∨ i = 1 ∨ i = 2 := by omega
  all_goals exact ⟨by decide, by decide, by decide⟩

/-- C126: for a doublet and two quartets the table contains a path through the spin 0, which a doublet and a quartet cannot have; with a
singlet among doublets, a coupling is missing; for a quintet and a doublet, which have no doublet coupling, a path is returned. -/
theorem C126_table_violated :
    (∃ t, gencoupTable [2, 4, 4] 2 = some t ∧ [1, 0, 1] ∈ t ∧ ¬ IsCoupling [2, 4, 4] 2 [1, 0, 1]) ∧
    (∃ t, gencoupTable [2, 2, 1, 2, 2] 1 = some t ∧ [1, 0, 0, 1, 0] ∉ t ∧ IsCoupling [2, 2, 1, 2, 2] 1 [1, 0, 0, 1, 0]) ∧
    (∃ t, gencoupTable [5, 2] 2 = some t ∧ t ≠ [] ∧ ∀ p, ¬ IsCoupling [5, 2] 2 p) := by
  refine ⟨⟨_, rfl, by decide +kernel, fun h => ?_⟩, ⟨_, rfl, by decide +kernel, ⟨rfl, rfl, fun i hi => ?_, rfl⟩⟩, ⟨_, rfl, by decide +kernel, fun p h => ?_⟩⟩
  · have := (h.step 0 (by decide)).1
    exact absurd this (by decide)
  · have hi : i + 1 < 5 := by simpa using hi
    obtain rfl | rfl | rfl | rfl : i = 0 ∨ i = 1 ∨ i = 2 ∨ i = 3 := by omega
    all_goals exact ⟨by decide, by decide, by decide⟩
  · have h1 := (h.step 0 (by decide)).1
    have h2 := h.first
    have h3 := h.last
    simp only [List.length_cons, List.length_nil, List.getD_cons_zero, List.getD_cons_succ] at h1 h2 h3
    have h3 : p.getD 1 0 = 1 := by simpa using h3
    have := (abs_le.1 h1).2
    push_cast at this h2
    omega

end Verif.Props
