import Verif.Lemmas.FsuccHop
/-!
# Anticommutation and the spin operator
-/
namespace Verif.Fsucc
open Verif.Spec.Fsucc

variable {K : Type}

theorem testBit_xor_pow (D p q : Nat) : (D ^^^ 2 ^ p).testBit q = (D.testBit q ^^ decide (p = q)) := by
  rw [Nat.testBit_xor, Nat.testBit_two_pow]

theorem neg_one_nAbove_xor [CommRing K] {norb : Nat} (D p q : Nat) (hp : p < norb) (hpq : p ≠ q) :
    ((-1) ^ nAbove norb (D ^^^ 2 ^ p) q : K) = (if q < p then -1 else 1) * (-1) ^ nAbove norb D q := by
  by_cases h : q < p
  · rw [if_pos h]
    unfold nAbove
    set S := (Finset.range norb).filter fun r => (q < r ∧ D.testBit r = true) ∧ r ≠ p with hS
    have hn : p ∉ S := by simp [hS]
    have key : ∀ E : Nat, (∀ r, r ≠ p → E.testBit r = D.testBit r) →
        ((Finset.range norb).filter fun r => q < r ∧ E.testBit r = true).card =
          S.card + if E.testBit p then 1 else 0 := by
      intro E hE
      by_cases hb : E.testBit p = true
      · rw [if_pos hb, ← Finset.card_insert_of_notMem hn]
        congr 1
        ext r
        simp only [hS, Finset.mem_filter, Finset.mem_range, Finset.mem_insert]
        constructor
        · rintro ⟨h1, h2, h3⟩
          by_cases hr : r = p
          · exact Or.inl hr
          · exact Or.inr ⟨h1, ⟨h2, by rw [← hE r hr]; exact h3⟩, hr⟩
        · rintro (rfl | ⟨h1, ⟨h2, h3⟩, h4⟩)
          · exact ⟨hp, h, hb⟩
          · exact ⟨h1, h2, by rw [hE r h4]; exact h3⟩
      · rw [if_neg hb, add_zero]
        congr 1
        ext r
        simp only [hS, Finset.mem_filter, Finset.mem_range]
        constructor
        · rintro ⟨h1, h2, h3⟩
          have hr : r ≠ p := by rintro rfl; exact hb h3
          exact ⟨h1, ⟨h2, by rw [← hE r hr]; exact h3⟩, hr⟩
        · rintro ⟨h1, ⟨h2, h3⟩, h4⟩
          exact ⟨h1, h2, by rw [hE r h4]; exact h3⟩
    rw [key D (fun _ _ => rfl), key (D ^^^ 2 ^ p) (by
      intro r hr
      rw [testBit_xor_pow, decide_eq_false (fun h => hr h.symm)]; simp)]
    rw [testBit_xor_pow]
    cases D.testBit p <;> simp [pow_add]
  · rw [if_neg h, one_mul]
    congr 1
    unfold nAbove
    congr 1
    apply Finset.filter_congr
    intro r _
    constructor
    · rintro ⟨h1, h2⟩
      rw [testBit_xor_pow, decide_eq_false (by omega)] at h2
      exact ⟨h1, by simpa using h2⟩
    · rintro ⟨h1, h2⟩
      rw [testBit_xor_pow, decide_eq_false (by omega)]
      exact ⟨h1, by simpa using h2⟩

theorem sq_neg_one [CommRing K] (n : Nat) : ((-1 : K) ^ n) * (-1) ^ n = 1 := by
  rw [← mul_pow]; simp

/-- `p q' + q' p = δ`. -/
theorem ann_cre [CommRing K] {norb : Nat} {p q : Nat} (hp : p < norb) (hq : q < norb) (φ : Nat → K) (D : Nat) :
    ann norb p (cre norb q φ) D = (if p = q then φ D else 0) - cre norb q (ann norb p φ) D := by
  unfold ann cre
  dsimp only
  by_cases hpq : p = q
  · subst hpq
    rw [if_pos rfl, nAbove_xor, testBit_xor_pow, Nat.xor_assoc, Nat.xor_self, Nat.xor_zero, decide_eq_true rfl]
    cases D.testBit p
    · simp [← mul_assoc, sq_neg_one]
    · simp [← mul_assoc, sq_neg_one]
  · rw [if_neg hpq, zero_sub, testBit_xor_pow, testBit_xor_pow, decide_eq_false hpq,
      decide_eq_false (fun h => hpq h.symm), neg_one_nAbove_xor D p q hp hpq,
      neg_one_nAbove_xor D q p hq (fun h => hpq h.symm)]
    have hx : D ^^^ 2 ^ p ^^^ 2 ^ q = D ^^^ 2 ^ q ^^^ 2 ^ p := by
      rw [Nat.xor_assoc, Nat.xor_comm (2 ^ p), ← Nat.xor_assoc]
    rw [hx]
    cases D.testBit p <;> cases D.testBit q <;> simp
    rcases lt_or_gt_of_ne hpq with h | h
    · rw [if_neg (by omega), if_pos h]; ring
    · rw [if_pos h, if_neg (by omega)]; ring

theorem cre_add [CommRing K] (norb p : Nat) (φ χ : Nat → K) (D : Nat) :
    cre norb p (fun E => φ E + χ E) D = cre norb p φ D + cre norb p χ D := by
  unfold cre; split <;> ring

theorem cre_sub [CommRing K] (norb p : Nat) (φ χ : Nat → K) (D : Nat) :
    cre norb p (fun E => φ E - χ E) D = cre norb p φ D - cre norb p χ D := by
  unfold cre; split <;> ring

theorem cre_sum [CommRing K] (norb p : Nat) (s : Finset Nat) (φ : Nat → Nat → K) (D : Nat) :
    cre norb p (fun E => ∑ q ∈ s, φ q E) D = ∑ q ∈ s, cre norb p (φ q) D := by
  unfold cre; split
  · rw [Finset.mul_sum]
  · simp

theorem ann_sum [CommRing K] (norb p : Nat) (s : Finset Nat) (φ : Nat → Nat → K) (D : Nat) :
    ann norb p (fun E => ∑ q ∈ s, φ q E) D = ∑ q ∈ s, ann norb p (φ q) D := by
  unfold ann; split
  · simp
  · rw [Finset.mul_sum]

/-- The number operator. -/
theorem cre_ann_self [CommRing K] (norb p : Nat) (φ : Nat → K) (D : Nat) :
    cre norb p (ann norb p φ) D = if D.testBit p then φ D else 0 := by
  unfold cre ann
  rw [nAbove_xor, testBit_xor_pow, Nat.xor_assoc, Nat.xor_self, Nat.xor_zero]
  cases D.testBit p
  · simp
  · simp [← mul_assoc, sq_neg_one]

theorem sminus_splus [CommRing K] (norb : Nat) (ψ : Nat → K) (D : Nat) :
    sminus norb (splus norb ψ) D =
      (∑ p ∈ Finset.range norb, if D.testBit (p + norb) then ψ D else 0) -
      ∑ p ∈ Finset.range norb, ∑ q ∈ Finset.range norb,
        excite (2 * norb) [p + norb, q] [q + norb, p] ψ D := by
  unfold sminus
  rw [← Finset.sum_sub_distrib]
  apply Finset.sum_congr rfl
  intro p hp
  rw [Finset.mem_range] at hp
  have h1 : ann (2 * norb) p (splus norb ψ) = fun E =>
      ann (2 * norb) (p + norb) ψ E -
        ∑ q ∈ Finset.range norb, cre (2 * norb) q (ann (2 * norb) p (ann (2 * norb) (q + norb) ψ)) E := by
    funext E
    unfold splus
    rw [ann_sum]
    have : ∀ q ∈ Finset.range norb, ann (2 * norb) p (cre (2 * norb) q (ann (2 * norb) (q + norb) ψ)) E =
        (if p = q then ann (2 * norb) (q + norb) ψ E else 0) -
          cre (2 * norb) q (ann (2 * norb) p (ann (2 * norb) (q + norb) ψ)) E := by
      intro q hq
      rw [Finset.mem_range] at hq
      exact ann_cre (by omega) (by omega) _ _
    rw [Finset.sum_congr rfl this, Finset.sum_sub_distrib, Finset.sum_ite_eq, if_pos (Finset.mem_range.mpr hp)]
  rw [h1, cre_sub, cre_ann_self, cre_sum]
  rfl

theorem ico_succ (lo m : Nat) : Finset.Ico lo (lo + m + 1) = insert (lo + m) (Finset.Ico lo (lo + m)) := by
  ext x; simp only [Finset.mem_Ico, Finset.mem_insert]; omega

theorem foldl_count (D lo m : Nat) (n0 : Int) :
    (List.range' lo m).foldl (fun (n : Int) (iorb : Nat) => n + (((D &&& (1 <<< iorb)) >>> iorb : Nat) : Int)) n0 =
      n0 + (nOcc lo (lo + m) D : Int) := by
  induction m with
  | zero => simp [nOcc]
  | succ m ih =>
    rw [List.range'_1_concat, List.foldl_append, ih]
    simp only [List.foldl_cons, List.foldl_nil, bit_val]
    unfold nOcc
    rw [← Nat.add_assoc, ico_succ lo m, Finset.filter_insert]
    cases h : D.testBit (lo + m)
    · simp
    · rw [if_pos rfl, Finset.card_insert_of_notMem (by simp)]
      simp; ring

theorem s2diag_eq [Field K] (norb : Nat) (psi : Nat → K) (D : Nat) :
    s2diag norb psi D = ((((nOcc 0 norb D : K) - nOcc norb (2 * norb) D) / 2) ^ 2 +
      ((nOcc 0 norb D : K) + nOcc norb (2 * norb) D) / 2) * psi D := by
  unfold s2diag
  dsimp only
  rw [List.range_eq_range', foldl_count, foldl_count, ← two_mul]
  push_cast
  simp only [zero_add]
  ring

theorem sum_bits [CommRing K] (norb D : Nat) (x : K) :
    (∑ p ∈ Finset.range norb, if D.testBit (p + norb) then x else 0) = nOcc norb (2 * norb) D * x := by
  have h : ∀ lo m, (∑ p ∈ Finset.range m, if D.testBit (p + lo) then x else 0) = nOcc lo (lo + m) D * x := by
    intro lo m
    induction m with
    | zero => simp [nOcc]
    | succ m ih =>
      rw [Finset.sum_range_succ, ih]
      unfold nOcc
      rw [← Nat.add_assoc, ico_succ lo m, Finset.filter_insert,
        Nat.add_comm m lo]
      cases h : D.testBit (lo + m)
      · simp
      · rw [if_pos rfl, if_pos rfl, Finset.card_insert_of_notMem (by simp)]
        push_cast; ring
  rw [h norb norb, ← two_mul]

end Verif.Fsucc
