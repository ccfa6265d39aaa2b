import Verif.Spec.SpinOp
import Mathlib.Tactic.LinearCombination
import Mathlib.Algebra.BigOperators.Field
/-! # Lemmas about the ladder operators -/
namespace Verif.SpinOp
open Finset Verif.Spec.Spin

theorem sgn_sq (a : Finset ℕ) (i : ℕ) : sgn a i * sgn a i = 1 := by
  unfold sgn; rw [← pow_add, ← two_mul]; simp

/-- sign of one pair -/
noncomputable def pr (i k : ℕ) : ℝ := if i < k then -1 else 1

theorem pr_sq (i k : ℕ) : pr i k * pr i k = 1 := by unfold pr; split <;> norm_num

theorem sgn_insert {a : Finset ℕ} {k : ℕ} (h : k ∉ a) (i : ℕ) : sgn (insert k a) i = sgn a i * pr i k := by
  unfold sgn pr
  rw [filter_insert]
  split
  · rw [card_insert_of_notMem (by simp [h]), pow_succ]
  · simp

theorem sgn_erase {a : Finset ℕ} {k : ℕ} (h : k ∈ a) (i : ℕ) : sgn (a.erase k) i = sgn a i * pr i k := by
  have h1 := sgn_insert (notMem_erase k a) i
  rw [insert_erase h] at h1
  rw [h1, mul_assoc, pr_sq, mul_one]

theorem sgn_insert_self {a : Finset ℕ} {k : ℕ} (h : k ∉ a) : sgn (insert k a) k = sgn a k := by
  rw [sgn_insert h]; simp [pr]

theorem sgn_erase_self {a : Finset ℕ} {k : ℕ} (h : k ∈ a) : sgn (a.erase k) k = sgn a k := by
  rw [sgn_erase h]; simp [pr]

/-- the doubly moved term -/
noncomputable def cross (v : Vec) (a b : Finset ℕ) (i j : ℕ) : ℝ :=
  sgn a i * sgn b i * (sgn a j * sgn b j) * v ((insert i a).erase j) (insert j (b.erase i))

theorem lower_raise (v : Vec) (a b : Finset ℕ) :
    lower (raise v) a b = ((b \ a).card : ℝ) * v a b + ∑ i ∈ b \ a, ∑ j ∈ a \ b, cross v a b i j := by
  unfold lower raise
  have h : ∀ i ∈ b \ a, sgn a i * sgn b i * ((-1) ^ ((insert i a).card + 1) *
      ∑ j ∈ insert i a \ b.erase i, sgn (insert i a) j * sgn (b.erase i) j *
        v ((insert i a).erase j) (insert j (b.erase i))) =
      (-1) ^ a.card * (v a b + ∑ j ∈ a \ b, cross v a b i j) := by
    intro i hi
    rw [mem_sdiff] at hi
    obtain ⟨hb, ha⟩ := hi
    have hs : insert i a \ b.erase i = insert i (a \ b) := by
      ext x; simp only [mem_sdiff, mem_insert, mem_erase]
      constructor
      · rintro ⟨rfl | h, h2⟩
        · exact .inl rfl
        · by_cases hx : x = i
          · exact .inl hx
          · exact .inr ⟨h, fun h3 => h2 ⟨hx, h3⟩⟩
      · rintro (rfl | ⟨h1, h2⟩)
        · simp
        · exact ⟨.inr h1, fun h3 => h2 h3.2⟩
    rw [hs, sum_insert (by simp [hb]), card_insert_of_notMem ha, sgn_insert_self ha, sgn_erase_self hb,
      erase_insert ha, insert_erase hb]
    have hc : ∀ j ∈ a \ b, sgn (insert i a) j * sgn (b.erase i) j * v ((insert i a).erase j) (insert j (b.erase i)) =
        sgn a j * sgn b j * v ((insert i a).erase j) (insert j (b.erase i)) := by
      intro j _
      rw [sgn_insert ha, sgn_erase hb]
      linear_combination sgn a j * sgn b j * v ((insert i a).erase j) (insert j (b.erase i)) * pr_sq j i
    rw [sum_congr rfl hc]
    have h3 : ∑ j ∈ a \ b, cross v a b i j = sgn a i * sgn b i *
        ∑ j ∈ a \ b, sgn a j * sgn b j * v ((insert i a).erase j) (insert j (b.erase i)) := by
      rw [mul_sum]; apply sum_congr rfl; intro j _; unfold cross; ring
    rw [h3]
    have e1 : ((-1 : ℝ)) ^ (a.card + 1 + 1) = (-1) ^ a.card := by rw [pow_succ, pow_succ]; ring
    rw [e1]
    have h4 := sgn_sq a i
    have h5 := sgn_sq b i
    linear_combination (-1) ^ a.card * v a b * (sgn b i * sgn b i * h4 + h5)
  rw [sum_congr rfl h, ← mul_sum, ← mul_assoc, ← pow_add, ← two_mul, sum_add_distrib]
  simp

theorem raise_lower (v : Vec) (a b : Finset ℕ) :
    raise (lower v) a b = ((a \ b).card : ℝ) * v a b + ∑ j ∈ a \ b, ∑ i ∈ b \ a, cross v a b i j := by
  unfold lower raise
  have h : ∀ j ∈ a \ b, sgn a j * sgn b j * ((-1) ^ (a.erase j).card *
      ∑ i ∈ insert j b \ a.erase j, sgn (a.erase j) i * sgn (insert j b) i *
        v (insert i (a.erase j)) ((insert j b).erase i)) =
      (-1) ^ (a.card + 1) * (v a b + ∑ i ∈ b \ a, cross v a b i j) := by
    intro j hj
    rw [mem_sdiff] at hj
    obtain ⟨ha, hb⟩ := hj
    have hs : insert j b \ a.erase j = insert j (b \ a) := by
      ext x; simp only [mem_sdiff, mem_insert, mem_erase]
      constructor
      · rintro ⟨rfl | h, h2⟩
        · exact .inl rfl
        · by_cases hx : x = j
          · exact .inl hx
          · exact .inr ⟨h, fun h3 => h2 ⟨hx, h3⟩⟩
      · rintro (rfl | ⟨h1, h2⟩)
        · simp
        · exact ⟨.inr h1, fun h3 => h2 h3.2⟩
    rw [hs, sum_insert (by simp [ha]), sgn_insert_self hb, sgn_erase_self ha, erase_insert hb, insert_erase ha]
    have hc : ∀ i ∈ b \ a, sgn (a.erase j) i * sgn (insert j b) i * v (insert i (a.erase j)) ((insert j b).erase i) =
        sgn a i * sgn b i * v ((insert i a).erase j) (insert j (b.erase i)) := by
      intro i hi
      rw [mem_sdiff] at hi
      have hij : i ≠ j := fun h => hi.2 (h ▸ ha)
      rw [sgn_erase ha, sgn_insert hb, erase_insert_of_ne hij, erase_insert_of_ne (Ne.symm hij)]
      linear_combination sgn a i * sgn b i * v (insert i (a.erase j)) (insert j (b.erase i)) * pr_sq i j
    rw [sum_congr rfl hc]
    have h3 : ∑ i ∈ b \ a, cross v a b i j = sgn a j * sgn b j *
        ∑ i ∈ b \ a, sgn a i * sgn b i * v ((insert i a).erase j) (insert j (b.erase i)) := by
      rw [mul_sum]; apply sum_congr rfl; intro j _; unfold cross; ring
    rw [h3]
    have e1 : ((-1 : ℝ)) ^ (a.card + 1) = (-1) ^ (a.erase j).card := by
      rw [card_erase_of_mem ha]
      obtain ⟨n, hn⟩ : ∃ n, a.card = n + 1 := ⟨a.card - 1, by have := card_pos.mpr ⟨j, ha⟩; omega⟩
      rw [hn, pow_succ, pow_succ]; simp
    rw [e1]
    have h4 := sgn_sq a j
    have h5 := sgn_sq b j
    linear_combination (-1) ^ (a.erase j).card * v a b * (sgn b j * sgn b j * h4 + h5)
  rw [sum_congr rfl h, ← mul_sum, ← mul_assoc, ← pow_add, ← two_mul, sum_add_distrib]
  simp

/-- `[S+, S-] = 2 Sz` -/
theorem commutator (v : Vec) (a b : Finset ℕ) :
    raise (lower v) a b = lower (raise v) a b + ((a.card : ℝ) - b.card) * v a b := by
  rw [raise_lower, lower_raise, sum_comm]
  have h1 := card_sdiff_add_card_inter a b
  have h2 := card_sdiff_add_card_inter b a
  rw [inter_comm] at h2
  have h3 : ((a \ b).card : ℝ) + (a ∩ b).card = a.card := by exact_mod_cast h1
  have h4 : ((b \ a).card : ℝ) + (a ∩ b).card = b.card := by exact_mod_cast h2
  linear_combination v a b * h3 - v a b * h4

/-- `S-` is the transpose of `S+`. -/
theorem adjoint (norb : ℕ) (v w : Vec) :
    ∑ a ∈ (range norb).powerset, ∑ b ∈ (range norb).powerset, lower v a b * w a b =
    ∑ a ∈ (range norb).powerset, ∑ b ∈ (range norb).powerset, v a b * raise w a b := by
  have hl : ∀ a ∈ (range norb).powerset, ∀ b ∈ (range norb).powerset, lower v a b * w a b =
      ∑ i ∈ range norb, if i ∉ a ∧ i ∈ b then
        (-1) ^ a.card * (sgn a i * sgn b i) * v (insert i a) (b.erase i) * w a b else 0 := by
    intro a ha b hb
    rw [← sum_filter]
    have : (range norb).filter (fun i => i ∉ a ∧ i ∈ b) = b \ a := by
      ext i; simp only [mem_filter, mem_sdiff]
      exact ⟨fun h => ⟨h.2.2, h.2.1⟩, fun h => ⟨mem_powerset.mp hb h.1, h.2, h.1⟩⟩
    rw [this]
    unfold lower
    rw [mul_sum, sum_mul]
    apply sum_congr rfl; intro i _; ring
  have hr : ∀ a ∈ (range norb).powerset, ∀ b ∈ (range norb).powerset, v a b * raise w a b =
      ∑ i ∈ range norb, if i ∈ a ∧ i ∉ b then
        (-1) ^ (a.card + 1) * (sgn a i * sgn b i) * v a b * w (a.erase i) (insert i b) else 0 := by
    intro a ha b hb
    rw [← sum_filter]
    have : (range norb).filter (fun i => i ∈ a ∧ i ∉ b) = a \ b := by
      ext i; simp only [mem_filter, mem_sdiff]
      exact ⟨fun h => h.2, fun h => ⟨mem_powerset.mp ha h.1, h⟩⟩
    rw [this]
    unfold raise
    rw [mul_sum, mul_sum]
    apply sum_congr rfl; intro i _; ring
  rw [sum_congr rfl fun a ha => sum_congr rfl fun b hb => hl a ha b hb,
    sum_congr rfl fun a ha => sum_congr rfl fun b hb => hr a ha b hb,
    sum_congr rfl fun a _ => sum_comm, sum_comm]
  conv_rhs => rw [sum_congr rfl fun a _ => sum_comm, sum_comm]
  apply sum_congr rfl
  intro i hi
  rw [← sum_product', ← sum_product', ← sum_filter, ← sum_filter]
  refine sum_nbij' (fun p => (insert i p.1, p.2.erase i)) (fun p => (p.1.erase i, insert i p.2)) ?_ ?_ ?_ ?_ ?_
  · rintro ⟨a, b⟩ h
    simp only [mem_filter, mem_product, mem_powerset] at h ⊢
    exact ⟨⟨insert_subset hi h.1.1, (erase_subset _ _).trans h.1.2⟩, by simp⟩
  · rintro ⟨a, b⟩ h
    simp only [mem_filter, mem_product, mem_powerset] at h ⊢
    exact ⟨⟨(erase_subset _ _).trans h.1.1, insert_subset hi h.1.2⟩, by simp⟩
  · rintro ⟨a, b⟩ h
    simp only [mem_filter] at h
    simp [erase_insert h.2.1, insert_erase h.2.2]
  · rintro ⟨a, b⟩ h
    simp only [mem_filter] at h
    simp [insert_erase h.2.1, erase_insert h.2.2]
  · rintro ⟨a, b⟩ h
    simp only [mem_filter] at h
    obtain ⟨-, h1, h2⟩ := h
    dsimp only
    rw [card_insert_of_notMem h1, sgn_insert_self h1, sgn_erase_self h2, erase_insert h1, insert_erase h2]
    ring

theorem mem_strings {norb ne : ℕ} {a : Finset ℕ} : a ∈ strings norb ne ↔ a ⊆ range norb ∧ a.card = ne := by
  unfold strings; exact mem_powersetCard

/-- The scatter loops compute `S-`. -/
theorem contractSdown_eq {norb na nb : ℕ} {v : Vec} (hv : InSpace norb na nb v) :
    contractSdown norb na nb v = lower v := by
  funext a' b'
  unfold contractSdown
  have key : ∀ i ∈ b' \ a', v (insert i a') (b'.erase i) ≠ 0 →
      insert i a' ∈ strings norb na ∧ b'.erase i ∈ strings norb nb := by
    intro i _ h; by_contra h2; exact h (hv _ _ h2)
  split
  · rename_i h0
    unfold lower
    rw [sum_eq_zero, mul_zero]
    intro i hi
    have : v (insert i a') (b'.erase i) = 0 := by
      by_contra h
      obtain ⟨h1, h2⟩ := key i hi h
      rw [mem_strings] at h1 h2
      rcases h0 with h0 | h0
      · rw [h0, card_eq_zero] at h1
        exact absurd (h1.2 ▸ mem_insert_self i a') (by simp)
      · have : b'.erase i = range norb := eq_of_subset_of_card_le h2.1 (by simp [h2.2, h0])
        have h3 := h1.1 (mem_insert_self i a')
        rw [← this] at h3
        exact absurd h3 (notMem_erase i b')
    rw [this, mul_zero]
  · rename_i h0
    unfold lower
    have hin : ∀ i ∈ range norb, (∑ a ∈ strings norb na, ∑ b ∈ strings norb nb,
        if (i ∈ a ∧ i ∉ b) ∧ a.erase i = a' ∧ insert i b = b' then
          v a b * sgn a i * sgn b i * (-1) ^ (na - 1) else 0) =
        if i ∈ b' \ a' then (-1) ^ a'.card * (sgn a' i * sgn b' i * v (insert i a') (b'.erase i)) else 0 := by
      intro i _
      by_cases hi : i ∈ b' \ a'
      · rw [if_pos hi]
        obtain ⟨hib, hia⟩ := mem_sdiff.mp hi
        rw [sum_eq_single (insert i a'), sum_eq_single (b'.erase i)]
        · rw [if_pos (by simp [erase_insert hia, insert_erase hib]), sgn_insert_self hia, sgn_erase_self hib]
          by_cases hz : v (insert i a') (b'.erase i) = 0
          · rw [hz]; ring
          · have := (mem_strings.mp (key i hi hz).1).2
            rw [card_insert_of_notMem hia] at this
            rw [← this, Nat.add_sub_cancel]; ring
        · intro b _ hb
          rw [if_neg]
          rintro ⟨⟨-, h1⟩, -, rfl⟩
          exact hb (erase_insert h1).symm
        · intro h
          rw [if_pos (by simp [erase_insert hia, insert_erase hib]), hv _ _ (fun h2 => h h2.2)]; ring
        · intro a _ ha
          apply sum_eq_zero; intro b _
          rw [if_neg]
          rintro ⟨⟨h1, -⟩, rfl, -⟩
          exact ha (insert_erase h1).symm
        · intro h
          apply sum_eq_zero; intro b _
          rw [hv _ _ (fun h2 => h h2.1)]; simp
      · rw [if_neg hi]
        apply sum_eq_zero; intro a _; apply sum_eq_zero; intro b _
        rw [if_neg]
        rintro ⟨⟨h1, h2⟩, rfl, rfl⟩
        exact hi (by simp)
    dsimp only
    rw [sum_congr rfl hin, ← sum_filter, mul_sum]
    apply sum_subset
    · intro i; simp
    · intro i hi hn
      by_cases hz : v (insert i a') (b'.erase i) = 0
      · rw [hz]; ring
      · have := (mem_strings.mp (key i hi hz).1).1 (mem_insert_self i a')
        exact absurd (mem_filter.mpr ⟨this, hi⟩) hn

/-- The scatter loops compute `S+`. -/
theorem contractSup_eq {norb na nb : ℕ} {v : Vec} (hv : InSpace norb na nb v) :
    contractSup norb na nb v = raise v := by
  funext a' b'
  unfold contractSup
  have key : ∀ i ∈ a' \ b', v (a'.erase i) (insert i b') ≠ 0 →
      a'.erase i ∈ strings norb na ∧ insert i b' ∈ strings norb nb := by
    intro i _ h; by_contra h2; exact h (hv _ _ h2)
  split
  · rename_i h0
    unfold raise
    rw [sum_eq_zero, mul_zero]
    intro i hi
    have : v (a'.erase i) (insert i b') = 0 := by
      by_contra h
      obtain ⟨h1, h2⟩ := key i hi h
      rw [mem_strings] at h1 h2
      rcases h0 with h0 | h0
      · have : a'.erase i = range norb := eq_of_subset_of_card_le h1.1 (by simp [h1.2, h0])
        have h3 := h2.1 (mem_insert_self i b')
        rw [← this] at h3
        exact absurd h3 (notMem_erase i a')
      · rw [h0, card_eq_zero] at h2
        exact absurd (h2.2 ▸ mem_insert_self i b') (by simp)
    rw [this, mul_zero]
  · rename_i h0
    unfold raise
    have hin : ∀ i ∈ range norb, (∑ a ∈ strings norb na, ∑ b ∈ strings norb nb,
        if (i ∉ a ∧ i ∈ b) ∧ insert i a = a' ∧ b.erase i = b' then
          v a b * sgn a i * sgn b i * (-1) ^ na else 0) =
        if i ∈ a' \ b' then (-1) ^ (a'.card + 1) * (sgn a' i * sgn b' i * v (a'.erase i) (insert i b')) else 0 := by
      intro i _
      by_cases hi : i ∈ a' \ b'
      · rw [if_pos hi]
        obtain ⟨hia, hib⟩ := mem_sdiff.mp hi
        rw [sum_eq_single (a'.erase i), sum_eq_single (insert i b')]
        · rw [if_pos (by simp [erase_insert hib, insert_erase hia]), sgn_insert_self hib, sgn_erase_self hia]
          by_cases hz : v (a'.erase i) (insert i b') = 0
          · rw [hz]; ring
          · have := (mem_strings.mp (key i hi hz).1).2
            rw [card_erase_of_mem hia] at this
            have hp := card_pos.mpr ⟨i, hia⟩
            have e : a'.card + 1 = na + 2 := by omega
            rw [e, pow_add]; ring
        · intro b _ hb
          rw [if_neg]
          rintro ⟨⟨-, h1⟩, -, rfl⟩
          exact hb (insert_erase h1).symm
        · intro h
          rw [if_pos (by simp [erase_insert hib, insert_erase hia]), hv _ _ (fun h2 => h h2.2)]; ring
        · intro a _ ha
          apply sum_eq_zero; intro b _
          rw [if_neg]
          rintro ⟨⟨h1, -⟩, rfl, -⟩
          exact ha (erase_insert h1).symm
        · intro h
          apply sum_eq_zero; intro b _
          rw [hv _ _ (fun h2 => h h2.1)]; simp
      · rw [if_neg hi]
        apply sum_eq_zero; intro a _; apply sum_eq_zero; intro b _
        rw [if_neg]
        rintro ⟨⟨h1, h2⟩, rfl, rfl⟩
        exact hi (by simp)
    dsimp only
    rw [sum_congr rfl hin, ← sum_filter, mul_sum]
    apply sum_subset
    · intro i; simp
    · intro i hi hn
      by_cases hz : v (a'.erase i) (insert i b') = 0
      · rw [hz]; ring
      · have := (mem_strings.mp (key i hi hz).2).1 (mem_insert_self i b')
        exact absurd (mem_filter.mpr ⟨this, hi⟩) hn

theorem lower_inSpace {norb na nb : ℕ} {v : Vec} (hv : InSpace norb na nb v) :
    InSpace norb (na - 1) (nb + 1) (lower v) := by
  intro a b h
  unfold lower
  rw [sum_eq_zero, mul_zero]
  intro i hi
  obtain ⟨hib, hia⟩ := mem_sdiff.mp hi
  rw [hv, mul_zero]
  rintro ⟨h1, h2⟩
  rw [mem_strings] at h1 h2
  apply h
  rw [mem_strings, mem_strings]
  have c1 := card_insert_of_notMem hia
  have c2 := card_erase_of_mem hib
  have := card_pos.mpr ⟨i, hib⟩
  refine ⟨⟨(subset_insert i a).trans h1.1, by omega⟩, ?_, by omega⟩
  rw [← insert_erase hib]
  exact insert_subset (h1.1 (mem_insert_self i a)) h2.1

theorem raise_inSpace {norb na nb : ℕ} {v : Vec} (hv : InSpace norb na nb v) :
    InSpace norb (na + 1) (nb - 1) (raise v) := by
  intro a b h
  unfold raise
  rw [sum_eq_zero, mul_zero]
  intro i hi
  obtain ⟨hia, hib⟩ := mem_sdiff.mp hi
  rw [hv, mul_zero]
  rintro ⟨h1, h2⟩
  rw [mem_strings] at h1 h2
  apply h
  rw [mem_strings, mem_strings]
  have c1 := card_insert_of_notMem hib
  have c2 := card_erase_of_mem hia
  have := card_pos.mpr ⟨i, hia⟩
  refine ⟨⟨?_, by omega⟩, (subset_insert i b).trans h2.1, by omega⟩
  rw [← insert_erase hia]
  exact insert_subset (h2.1 (mem_insert_self i b)) h1.1

/-- Sum over all strings. -/
theorem normSq_eq {norb na nb : ℕ} {v : Vec} (hv : InSpace norb na nb v) :
    normSq norb na nb v = ∑ a ∈ (range norb).powerset, ∑ b ∈ (range norb).powerset, v a b * v a b := by
  unfold normSq
  have hs : ∀ n, strings norb n ⊆ (range norb).powerset := by
    intro n a ha; exact mem_powerset.mpr (mem_strings.mp ha).1
  rw [sum_subset (hs na)]
  · apply sum_congr rfl; intro a ha
    rw [sum_subset (hs nb)]
    · apply sum_congr rfl; intro b _; ring
    · intro b _ hb; rw [hv _ _ (fun h => hb h.2)]; ring
  · intro a _ ha
    apply sum_eq_zero; intro b _; rw [hv _ _ (fun h => ha h.1)]; ring

theorem lower_scale (x : ℝ) (v : Vec) : lower (scale x v) = scale x (lower v) := by
  funext a b; unfold lower scale
  rw [mul_div_assoc, sum_div]; congr 1; apply sum_congr rfl; intro i _; ring

theorem raise_scale (x : ℝ) (v : Vec) : raise (scale x v) = scale x (raise v) := by
  funext a b; unfold raise scale
  rw [mul_div_assoc, sum_div]; congr 1; apply sum_congr rfl; intro i _; ring

theorem scale_inSpace {norb na nb : ℕ} {v : Vec} (hv : InSpace norb na nb v) (x : ℝ) :
    InSpace norb na nb (scale x v) := by
  intro a b h; unfold scale; rw [hv a b h, zero_div]

theorem card_diff {norb na nb : ℕ} {v : Vec} (hv : InSpace norb na nb v) (a b : Finset ℕ) :
    ((a.card : ℝ) - b.card) * v a b = ((na : ℝ) - nb) * v a b := by
  by_cases h : a ∈ strings norb na ∧ b ∈ strings norb nb
  · rw [(mem_strings.mp h.1).2, (mem_strings.mp h.2).2]
  · rw [hv a b h]; simp

/-- one step down -/
noncomputable def stepDown (norb : ℕ) (smult : ℤ) (na nb : ℕ) (v : Vec) : Vec :=
  scale (normSdown smult na nb) (contractSdown norb na nb v)

/-- one step up -/
noncomputable def stepUp (norb : ℕ) (smult : ℤ) (na nb : ℕ) (v : Vec) : Vec :=
  scale (normSup smult na nb) (contractSup norb na nb v)

theorem normSdown_sq {smult : ℤ} {na nb : ℕ} (h1 : -(smult - 1) < (na : ℤ) - nb) (h2 : (na : ℤ) - nb ≤ smult - 1) :
    0 < normSdown smult na nb ∧ normSdown smult na nb * normSdown smult na nb =
      ((smult : ℝ) - 1 - (na - nb) + 2) * (smult - 1 + (na - nb)) / 4 := by
  have e1 : (1 : ℝ) ≤ (smult : ℝ) - 1 + (na - nb) := by
    have : (1 : ℤ) ≤ smult - 1 + (na - nb) := by omega
    exact_mod_cast this
  have e2 : (2 : ℝ) ≤ (smult : ℝ) - 1 - (na - nb) + 2 := by
    have : (2 : ℤ) ≤ smult - 1 - (na - nb) + 2 := by omega
    exact_mod_cast this
  have hp : 0 < ((smult : ℝ) - 1 - (na - nb) + 2) * (smult - 1 + (na - nb)) / 4 := by
    have := mul_pos (lt_of_lt_of_le (by norm_num : (0:ℝ) < 2) e2) (lt_of_lt_of_le (by norm_num : (0:ℝ) < 1) e1)
    linarith
  unfold normSdown
  simp only [Int.cast_sub, Int.cast_one, Int.cast_natCast]
  exact ⟨Real.sqrt_pos.mpr hp, Real.mul_self_sqrt hp.le⟩

theorem normSup_sq {smult : ℤ} {na nb : ℕ} (h1 : -(smult - 1) ≤ (na : ℤ) - nb) (h2 : (na : ℤ) - nb < smult - 1) :
    0 < normSup smult na nb ∧ normSup smult na nb * normSup smult na nb =
      ((smult : ℝ) - 1 - (na - nb)) * (smult - 1 + (na - nb) + 2) / 4 := by
  have e1 : (2 : ℝ) ≤ (smult : ℝ) - 1 + (na - nb) + 2 := by
    have : (2 : ℤ) ≤ smult - 1 + (na - nb) + 2 := by omega
    exact_mod_cast this
  have e2 : (1 : ℝ) ≤ (smult : ℝ) - 1 - (na - nb) := by
    have : (1 : ℤ) ≤ smult - 1 - (na - nb) := by omega
    exact_mod_cast this
  have hp : 0 < ((smult : ℝ) - 1 - (na - nb)) * (smult - 1 + (na - nb) + 2) / 4 := by
    have := mul_pos (lt_of_lt_of_le (by norm_num : (0:ℝ) < 1) e2) (lt_of_lt_of_le (by norm_num : (0:ℝ) < 2) e1)
    linarith
  unfold normSup
  simp only [Int.cast_sub, Int.cast_one, Int.cast_natCast]
  exact ⟨Real.sqrt_pos.mpr hp, Real.mul_self_sqrt hp.le⟩

theorem sup_eq_sdown (smult : ℤ) {na nb : ℕ} (hn : 1 ≤ na) :
    normSup smult (na - 1) (nb + 1) = normSdown smult na nb := by
  unfold normSup normSdown
  dsimp only
  congr 1
  push_cast [Nat.cast_sub hn]
  ring

theorem sdown_eq_sup (smult : ℤ) {na nb : ℕ} (hn : 1 ≤ nb) :
    normSdown smult (na + 1) (nb - 1) = normSup smult na nb := by
  unfold normSup normSdown
  dsimp only
  congr 1
  push_cast [Nat.cast_sub hn]
  ring

/-- What one step down does to a spin-pure vector. -/
theorem stepDown_spec {norb na nb : ℕ} {smult : ℤ} {v : Vec} (hv : InSpace norb na nb v)
    (hp : SpinPure na nb smult v) (hn : 1 ≤ na)
    (h1 : -(smult - 1) < (na : ℤ) - nb) (h2 : (na : ℤ) - nb ≤ smult - 1) :
    InSpace norb (na - 1) (nb + 1) (stepDown norb smult na nb v) ∧
    SpinPure (na - 1) (nb + 1) smult (stepDown norb smult na nb v) ∧
    normSq norb (na - 1) (nb + 1) (stepDown norb smult na nb v) = normSq norb na nb v ∧
    stepUp norb smult (na - 1) (nb + 1) (stepDown norb smult na nb v) = v := by
  obtain ⟨hpos, hsq⟩ := normSdown_sq (smult := smult) (na := na) (nb := nb) h1 h2
  have hne := ne_of_gt hpos
  have hin := lower_inSpace hv
  have hw : stepDown norb smult na nb v = scale (normSdown smult na nb) (lower v) := by
    unfold stepDown; rw [contractSdown_eq hv]
  have hrl : ∀ a b, raise (lower v) a b = (normSdown smult na nb * normSdown smult na nb) * v a b := by
    intro a b
    rw [commutator, hp, card_diff hv, hsq]
    push_cast; ring
  have hrl' : raise (lower v) = fun a b => (normSdown smult na nb * normSdown smult na nb) * v a b := by
    funext a b; exact hrl a b
  have hws := scale_inSpace hin (normSdown smult na nb)
  rw [hw]
  refine ⟨hws, ?_, ?_, ?_⟩
  · intro a b
    rw [raise_scale, lower_scale, hrl']
    have hl : lower (fun a b => normSdown smult na nb * normSdown smult na nb * v a b) a b =
        normSdown smult na nb * normSdown smult na nb * lower v a b := by
      unfold lower; rw [mul_left_comm, mul_sum (a := normSdown smult na nb * normSdown smult na nb)]
      congr 1; apply sum_congr rfl; intro i _; ring
    unfold scale
    rw [hl, hsq]
    push_cast [Nat.cast_sub hn]
    ring
  · rw [normSq_eq hws, normSq_eq hv]
    have had := adjoint norb v (lower v)
    have e1 : ∀ a b, scale (normSdown smult na nb) (lower v) a b * scale (normSdown smult na nb) (lower v) a b =
        lower v a b * lower v a b / (normSdown smult na nb * normSdown smult na nb) := by
      intro a b; unfold scale; rw [div_mul_div_comm]
    simp only [e1, ← sum_div]
    rw [had, div_eq_iff (mul_ne_zero hne hne), sum_mul]
    apply sum_congr rfl; intro a _
    rw [sum_mul]
    apply sum_congr rfl; intro b _
    rw [hrl]; ring
  · unfold stepUp
    rw [contractSup_eq hws, raise_scale, hrl', sup_eq_sdown smult hn]
    funext a b
    unfold scale
    dsimp only
    rw [mul_assoc, mul_div_cancel_left₀ _ hne, mul_div_cancel_left₀ _ hne]

/-- What one step up does to a spin-pure vector. -/
theorem stepUp_spec {norb na nb : ℕ} {smult : ℤ} {v : Vec} (hv : InSpace norb na nb v)
    (hp : SpinPure na nb smult v) (hn : 1 ≤ nb)
    (h1 : -(smult - 1) ≤ (na : ℤ) - nb) (h2 : (na : ℤ) - nb < smult - 1) :
    InSpace norb (na + 1) (nb - 1) (stepUp norb smult na nb v) ∧
    SpinPure (na + 1) (nb - 1) smult (stepUp norb smult na nb v) ∧
    normSq norb (na + 1) (nb - 1) (stepUp norb smult na nb v) = normSq norb na nb v ∧
    stepDown norb smult (na + 1) (nb - 1) (stepUp norb smult na nb v) = v := by
  obtain ⟨hpos, hsq⟩ := normSup_sq (smult := smult) (na := na) (nb := nb) h1 h2
  have hne := ne_of_gt hpos
  have hin := raise_inSpace hv
  have hw : stepUp norb smult na nb v = scale (normSup smult na nb) (raise v) := by
    unfold stepUp; rw [contractSup_eq hv]
  have hlr : ∀ a b, lower (raise v) a b = (normSup smult na nb * normSup smult na nb) * v a b := by
    intro a b
    rw [hp, hsq]
    push_cast; ring
  have hlr' : lower (raise v) = fun a b => (normSup smult na nb * normSup smult na nb) * v a b := by
    funext a b; exact hlr a b
  have hws := scale_inSpace hin (normSup smult na nb)
  rw [hw]
  refine ⟨hws, ?_, ?_, ?_⟩
  · intro a b
    have hc := commutator (raise v) a b
    rw [card_diff hin, hlr'] at hc
    have hl : raise (fun a b => normSup smult na nb * normSup smult na nb * v a b) a b =
        normSup smult na nb * normSup smult na nb * raise v a b := by
      unfold raise; rw [mul_left_comm, mul_sum (a := normSup smult na nb * normSup smult na nb)]
      congr 1; apply sum_congr rfl; intro i _; ring
    rw [hl, hsq] at hc
    rw [raise_scale, lower_scale]
    have hc2 := eq_sub_of_add_eq hc.symm
    unfold scale
    rw [hc2]
    push_cast [Nat.cast_sub hn]
    ring
  · rw [normSq_eq hws, normSq_eq hv]
    have had := adjoint norb (raise v) v
    have e1 : ∀ a b, scale (normSup smult na nb) (raise v) a b * scale (normSup smult na nb) (raise v) a b =
        raise v a b * raise v a b / (normSup smult na nb * normSup smult na nb) := by
      intro a b; unfold scale; rw [div_mul_div_comm]
    simp only [e1, ← sum_div]
    rw [← had, div_eq_iff (mul_ne_zero hne hne), sum_mul]
    apply sum_congr rfl; intro a _
    rw [sum_mul]
    apply sum_congr rfl; intro b _
    rw [hlr]; ring
  · unfold stepDown
    rw [contractSdown_eq hws, lower_scale, hlr', sdown_eq_sup smult hn]
    funext a b
    unfold scale
    dsimp only
    rw [mul_assoc, mul_div_cancel_left₀ _ hne, mul_div_cancel_left₀ _ hne]

theorem mdownLoop_succ (norb na nb : ℕ) (smult : ℤ) (j : ℕ) (v : Vec) :
    mdownLoop norb na nb smult (j + 1) v =
      mdownLoop norb na nb smult j (stepDown norb smult (na + (j + 1)) (nb - (j + 1)) v) := rfl

theorem mupLoop_snoc (norb na nb : ℕ) (smult : ℤ) (r j : ℕ) (v : Vec) :
    mupLoop norb na nb smult j (r + 1) v =
      stepUp norb smult (na + (j + r)) (nb - (j + r)) (mupLoop norb na nb smult j r v) := by
  induction r generalizing j v with
  | zero => rfl
  | succ r ih =>
    have : mupLoop norb na nb smult j (r + 1 + 1) v =
      mupLoop norb na nb smult (j + 1) (r + 1) (stepUp norb smult (na + j) (nb - j) v) := rfl
    rw [this, ih]
    have e : j + 1 + r = j + (r + 1) := by omega
    rw [e]; rfl

theorem mdown_core {norb na nb : ℕ} {smult : ℤ} (K : ℕ) (v : Vec) (hK : K ≤ nb)
    (h1 : -(smult - 1) ≤ (na : ℤ) - nb) (h2 : (na : ℤ) - nb + 2 * K ≤ smult - 1)
    (hv : InSpace norb (na + K) (nb - K) v) (hp : SpinPure (na + K) (nb - K) smult v) :
    InSpace norb na nb (mdownLoop norb na nb smult K v) ∧ SpinPure na nb smult (mdownLoop norb na nb smult K v) ∧
    normSq norb na nb (mdownLoop norb na nb smult K v) = normSq norb (na + K) (nb - K) v ∧
    mupLoop norb na nb smult 0 K (mdownLoop norb na nb smult K v) = v := by
  induction K generalizing v with
  | zero => exact ⟨hv, hp, rfl, rfl⟩
  | succ K ih =>
    obtain ⟨s1, s2, s3, s4⟩ := stepDown_spec hv hp (by omega) (by push_cast [Nat.cast_sub hK]; omega)
      (by push_cast [Nat.cast_sub hK]; omega)
    have e1 : na + (K + 1) - 1 = na + K := by omega
    have e2 : nb - (K + 1) + 1 = nb - K := by omega
    rw [e1, e2] at s1 s2 s3 s4
    obtain ⟨i1, i2, i3, i4⟩ := ih _ (by omega) (by push_cast at h2; omega) s1 s2
    rw [mdownLoop_succ]
    refine ⟨i1, i2, i3.trans s3, ?_⟩
    rw [mupLoop_snoc, i4, Nat.zero_add, s4]

theorem mup_core {norb na nb : ℕ} {smult : ℤ} (K : ℕ) (v : Vec) (hK : K ≤ nb)
    (h1 : -(smult - 1) ≤ (na : ℤ) - nb) (h2 : (na : ℤ) - nb + 2 * K ≤ smult - 1)
    (hv : InSpace norb na nb v) (hp : SpinPure na nb smult v) :
    InSpace norb (na + K) (nb - K) (mupLoop norb na nb smult 0 K v) ∧
    SpinPure (na + K) (nb - K) smult (mupLoop norb na nb smult 0 K v) ∧
    normSq norb (na + K) (nb - K) (mupLoop norb na nb smult 0 K v) = normSq norb na nb v ∧
    mdownLoop norb na nb smult K (mupLoop norb na nb smult 0 K v) = v := by
  induction K with
  | zero => exact ⟨hv, hp, rfl, rfl⟩
  | succ K ih =>
    obtain ⟨i1, i2, i3, i4⟩ := ih (by omega) (by push_cast at h2; omega)
    have hK' : K ≤ nb := by omega
    obtain ⟨s1, s2, s3, s4⟩ := stepUp_spec i1 i2 (by omega) (by push_cast [Nat.cast_sub hK']; omega)
      (by push_cast [Nat.cast_sub hK']; push_cast at h2; omega)
    have e2 : nb - K - 1 = nb - (K + 1) := by omega
    rw [e2, Nat.add_assoc] at s1 s2 s3 s4
    rw [mdownLoop_succ, mupLoop_snoc, Nat.zero_add]
    refine ⟨s1, s2, s3.trans i3, ?_⟩
    rw [s4, i4]

theorem szrotDown_spec {norb : ℕ} {smult : ℤ} (n : ℕ) (sz1 : ℤ) (na nb : ℕ) (v : Vec)
    (hsz : sz1 = (na : ℤ) - nb - 2) (hN : smult - 1 ≤ na + nb)
    (hb : -(smult - 1) ≤ (na : ℤ) - nb - 2 * n) (ht : (na : ℤ) - nb ≤ smult - 1)
    (hv : InSpace norb na nb v) (hp : SpinPure na nb smult v) :
    (szrotDown norb smult n sz1 na nb v).map Prod.fst = (List.range n).map (fun k : ℕ => sz1 - 2 * k) ∧
    ∀ kw ∈ szrotDown norb smult n sz1 na nb v, ∃ na' nb' : ℕ, na' + nb' = na + nb ∧ (na' : ℤ) - nb' = kw.1 ∧
      InSpace norb na' nb' kw.2 ∧ SpinPure na' nb' smult kw.2 ∧ normSq norb na' nb' kw.2 = normSq norb na nb v := by
  induction n generalizing sz1 na nb v with
  | zero => simp [szrotDown]
  | succ n ih =>
    push_cast at hb
    obtain ⟨s1, s2, s3, -⟩ := stepDown_spec hv hp (by omega) (by omega) ht
    obtain ⟨i1, i2⟩ := ih (sz1 - 2) (na - 1) (nb + 1) _ (by omega) (by omega) (by omega) (by omega) s1 s2
    change (List.map Prod.fst ((sz1, stepDown norb smult na nb v) ::
      szrotDown norb smult n (sz1 - 2) (na - 1) (nb + 1) (stepDown norb smult na nb v)) = _) ∧
      ∀ kw ∈ (sz1, stepDown norb smult na nb v) ::
        szrotDown norb smult n (sz1 - 2) (na - 1) (nb + 1) (stepDown norb smult na nb v), _
    constructor
    · rw [List.map_cons, i1, List.range_succ_eq_map, List.map_cons, List.map_map]
      simp only [Nat.cast_zero, mul_zero, sub_zero, List.cons.injEq, true_and]
      apply List.map_congr_left; intro k _; simp only [Function.comp]; push_cast; ring
    · intro kw hkw
      rcases List.mem_cons.mp hkw with rfl | hkw
      · exact ⟨na - 1, nb + 1, by omega, by dsimp only; omega, s1, s2, s3⟩
      · obtain ⟨na', nb', a1, a2, a3, a4, a5⟩ := i2 kw hkw
        exact ⟨na', nb', by omega, a2, a3, a4, a5.trans s3⟩

theorem szrotUp_spec {norb : ℕ} {smult : ℤ} (n : ℕ) (sz1 : ℤ) (na nb : ℕ) (v : Vec)
    (hsz : sz1 = (na : ℤ) - nb + 2) (hN : smult - 1 ≤ na + nb)
    (hb : -(smult - 1) ≤ (na : ℤ) - nb) (ht : (na : ℤ) - nb + 2 * n ≤ smult - 1)
    (hv : InSpace norb na nb v) (hp : SpinPure na nb smult v) :
    (szrotUp norb smult n sz1 na nb v).map Prod.fst = (List.range n).map (fun k : ℕ => sz1 + 2 * k) ∧
    ∀ kw ∈ szrotUp norb smult n sz1 na nb v, ∃ na' nb' : ℕ, na' + nb' = na + nb ∧ (na' : ℤ) - nb' = kw.1 ∧
      InSpace norb na' nb' kw.2 ∧ SpinPure na' nb' smult kw.2 ∧ normSq norb na' nb' kw.2 = normSq norb na nb v := by
  induction n generalizing sz1 na nb v with
  | zero => simp [szrotUp]
  | succ n ih =>
    push_cast at ht
    obtain ⟨s1, s2, s3, -⟩ := stepUp_spec hv hp (by omega) hb (by omega)
    obtain ⟨i1, i2⟩ := ih (sz1 + 2) (na + 1) (nb - 1) _ (by omega) (by omega) (by omega) (by omega) s1 s2
    change (List.map Prod.fst ((sz1, stepUp norb smult na nb v) ::
      szrotUp norb smult n (sz1 + 2) (na + 1) (nb - 1) (stepUp norb smult na nb v)) = _) ∧
      ∀ kw ∈ (sz1, stepUp norb smult na nb v) ::
        szrotUp norb smult n (sz1 + 2) (na + 1) (nb - 1) (stepUp norb smult na nb v), _
    constructor
    · rw [List.map_cons, i1, List.range_succ_eq_map, List.map_cons, List.map_map]
      simp only [Nat.cast_zero, mul_zero, add_zero, List.cons.injEq, true_and]
      apply List.map_congr_left; intro k _; simp only [Function.comp]; push_cast; ring
    · intro kw hkw
      rcases List.mem_cons.mp hkw with rfl | hkw
      · exact ⟨na + 1, nb - 1, by omega, by dsimp only; omega, s1, s2, s3⟩
      · obtain ⟨na', nb', a1, a2, a3, a4, a5⟩ := i2 kw hkw
        exact ⟨na', nb', by omega, a2, a3, a4, a5.trans s3⟩

end Verif.SpinOp
