import Verif.Spec.HalfOp
import Verif.Lemmas.Ladder
import Verif.Lemmas.S2El
/-!
# Operators on vectors padded with dummy orbitals
-/
namespace Verif.HalfOp
open Verif.Dummy Verif.FciRdm Verif.Fockspace Verif.Spec.Tdm Verif.Spec.FciRdm Verif.Spec.HalfOp Verif.Tdm Verif.Props.Dummy
open Verif.Spec.Fsucc (nOcc nAbove)

variable {K : Type} [Field K]

/-! ### creation and annihilation -/

theorem cre_smul (N : Nat) (s : Bool) (p : Nat) (c : K) (ψ : Vec K) :
    cre N s p (fun A B => c * ψ A B) = fun A B => c * cre N s p ψ A B := by
  funext A B
  unfold cre
  cases s
  · simp only [Bool.false_eq_true, if_false]
    split
    · ring
    · simp
  · simp only [if_true]
    split
    · ring
    · simp

theorem cre_zero (N : Nat) (s : Bool) (p : Nat) : cre N s p (fun _ _ => (0 : K)) = fun _ _ => 0 := by
  funext A B; unfold cre; cases s <;> simp

theorem ann_cre (N : Nat) (s t : Bool) (p r : Nat) (hp : p < N) (hr : r < N) (ψ : Vec K) (A B : Nat) :
    ann N t r (cre N s p ψ) A B = (if s = t ∧ p = r then ψ A B else 0) - cre N s p (ann N t r ψ) A B := by
  have := Ladder.ann_cre N s t p r hp hr ψ A B
  rw [← this]
  exact (add_sub_cancel_right _ _).symm

theorem cre_add' (N : Nat) (s : Bool) (p : Nat) (ψ χ : Vec K) (A B : Nat) :
    cre N s p (fun A B => ψ A B + χ A B) A B = cre N s p ψ A B + cre N s p χ A B := by
  unfold cre
  cases s
  · simp only [Bool.false_eq_true, if_false]; split <;> ring
  · simp only [if_true]; split <;> ring

theorem cre_sub' (N : Nat) (s : Bool) (p : Nat) (ψ χ : Vec K) (A B : Nat) :
    cre N s p (fun A B => ψ A B - χ A B) A B = cre N s p ψ A B - cre N s p χ A B := by
  unfold cre
  cases s
  · simp only [Bool.false_eq_true, if_false]; split <;> ring
  · simp only [if_true]; split <;> ring

/-- Creation operators anticommute. -/
theorem cre_comm (N : Nat) (s t : Bool) (p r : Nat) (hp : p < N) (hr : r < N) (ψ : Vec K) :
    cre N t r (cre N s p ψ) = fun A B => -cre N s p (cre N t r ψ) A B := by
  have xc : ∀ A, (A ^^^ 2 ^ r) ^^^ 2 ^ p = (A ^^^ 2 ^ p) ^^^ 2 ^ r := by
    intro A; rw [Nat.xor_assoc, Nat.xor_assoc, Nat.xor_comm (2 ^ r)]
  funext A B
  unfold cre
  cases s <;> cases t
  · simp only [Bool.false_eq_true, if_false]
    by_cases hrp : p = r
    · subst hrp
      simp only [Ladder.testBit_xor_same]
      cases A.testBit p <;> simp
    · simp only [testBit_xor_pow A r p hrp, testBit_xor_pow A p r (Ne.symm hrp), Ladder.sA N r p _ hr, Ladder.sA N p r _ hp, xc]
      cases h1 : A.testBit p <;> cases h2 : A.testBit r <;> simp
      rcases Nat.lt_or_gt_of_ne hrp with h | h
      · rw [if_pos h, if_neg (show ¬ r < p by omega)]; ring
      · rw [if_pos (show r < p from h), if_neg (show ¬ p < r by omega)]; ring
  · simp only [Bool.false_eq_true, if_false, if_true, pow_add, Ladder.sO N p _ hp]
    cases h1 : A.testBit p <;> cases h2 : B.testBit r <;> simp
    ring
  · simp only [Bool.false_eq_true, if_false, if_true, pow_add, Ladder.sO N r _ hr]
    cases h1 : B.testBit p <;> cases h2 : A.testBit r <;> simp
    ring
  · simp only [if_true, pow_add]
    by_cases hrp : p = r
    · subst hrp
      simp only [Ladder.testBit_xor_same]
      cases B.testBit p <;> simp
    · simp only [testBit_xor_pow B r p hrp, testBit_xor_pow B p r (Ne.symm hrp), Ladder.sA N r p _ hr, Ladder.sA N p r _ hp, xc]
      cases h1 : B.testBit p <;> cases h2 : B.testBit r <;> simp
      rcases Nat.lt_or_gt_of_ne hrp with h | h
      · rw [if_pos h, if_neg (show ¬ r < p by omega)]; ring
      · rw [if_pos (show r < p from h), if_neg (show ¬ p < r by omega)]; ring

/-! ### padded vectors -/

theorem cre_pad {n p : Nat} (s a b : Bool) (ψ : Vec K) (hp : p < n) :
    cre (n + 1) s p (pad n a b ψ) = fun A B => (-1) ^ (a.toNat + b.toNat) * pad n a b (cre n s p ψ) A B := by
  funext A B
  have hp1 : p < n + 1 := by omega
  cases s
  · simp only [cre, pad, Bool.false_eq_true, if_false, xor_lt hp1, FciRdm.testBit_xor_ne (show p ≠ n by omega), testBit_mod hp]
    by_cases hc : A < 2 ^ (n + 1) ∧ B < 2 ^ (n + 1) ∧ A.testBit n = a ∧ B.testBit n = b
    · rw [if_pos hc, if_pos hc]
      by_cases hb : A.testBit p
      · rw [if_pos hb, if_pos hb, pow_mul', Ladder.sO n p A hp, nAbove_succ hp, xor_mod hp, hc.2.2.1, pow_mul']
        cases a <;> cases b <;> simp <;> ring
      · rw [if_neg hb, if_neg hb]; ring
    · rw [if_neg hc, if_neg hc]; simp
  · simp only [cre, pad, if_true, xor_lt hp1, FciRdm.testBit_xor_ne (show p ≠ n by omega), testBit_mod hp]
    by_cases hc : A < 2 ^ (n + 1) ∧ B < 2 ^ (n + 1) ∧ A.testBit n = a ∧ B.testBit n = b
    · rw [if_pos hc, if_pos hc]
      by_cases hb : B.testBit p
      · rw [if_pos hb, if_pos hb, nAbove_succ hp, xor_mod hp, hc.2.2.2, nOcc_succ, hc.2.2.1, nOcc_mod]
        cases a <;> cases b <;> simp <;> ring
      · rw [if_neg hb, if_neg hb]; ring
    · rw [if_neg hc, if_neg hc]; simp

theorem cre_pad_up {n : Nat} (b : Bool) (ψ : Vec K) : cre (n + 1) false n (pad n false b ψ) = pad n true b ψ := by
  funext A B
  simp only [cre, pad, Bool.false_eq_true, if_false, xor_lt (show n < n + 1 by omega), FciRdm.testBit_xor_self', nAbove_top, pow_zero,
    one_mul, nOcc_xor_above (Nat.le_refl n), xor_mod_self]
  cases hb : A.testBit n <;> simp

theorem cre_pad_down {n : Nat} (a : Bool) (ψ : Vec K) :
    cre (n + 1) true n (pad n a false ψ) = fun A B => (-1) ^ a.toNat * pad n a true ψ A B := by
  funext A B
  simp only [cre, pad, if_true, xor_lt (show n < n + 1 by omega), FciRdm.testBit_xor_self', nAbove_top, xor_mod_self]
  cases hb : B.testBit n
  · simp
  · by_cases hc : A < 2 ^ (n + 1) ∧ B < 2 ^ (n + 1) ∧ A.testBit n = a
    · obtain ⟨h1, h2, h3⟩ := hc
      simp only [h1, h2, h3, nOcc_succ, Bool.not_true, and_self, if_true, Bool.toNat_true, one_mul,
        Bool.toNat_false, zero_mul, pow_zero, add_zero]
      have h4 : (if a = true then 1 else 0) = a.toNat := by cases a <;> rfl
      rw [h4, pow_add]
      ring
    · simp only [if_true]
      rw [if_neg (fun h => hc ⟨h.1, h.2.1, h.2.2.1⟩), if_neg (fun h => hc ⟨h.1, h.2.1, h.2.2.1⟩)]
      simp

theorem cre_pad_full {n : Nat} (s a b : Bool) (ψ : Vec K) (h : (if s then b else a) = true) :
    cre (n + 1) s n (pad n a b ψ) = fun _ _ => 0 := by
  funext A B
  cases s
  · simp only [Bool.false_eq_true, if_false] at h
    simp only [cre, pad, Bool.false_eq_true, if_false, FciRdm.testBit_xor_self', h]
    cases hb : A.testBit n <;> simp
  · simp only [if_true] at h
    simp only [cre, pad, if_true, FciRdm.testBit_xor_self', h]
    cases hb : B.testBit n <;> simp

theorem ann_pad_none {n : Nat} (s a b : Bool) (ψ : Vec K) (h : (if s then b else a) = false) :
    ann (n + 1) s n (pad n a b ψ) = fun _ _ => 0 := by
  funext A B
  cases s
  · simp only [Bool.false_eq_true, if_false] at h
    simp only [ann, pad, Bool.false_eq_true, if_false, FciRdm.testBit_xor_self', h]
    cases hb : A.testBit n <;> simp
  · simp only [if_true] at h
    simp only [ann, pad, if_true, FciRdm.testBit_xor_self', h]
    cases hb : B.testBit n <;> simp

/-- An excitation among the other orbitals. -/
theorem exc_pad {n p q : Nat} (s a b : Bool) (ψ : Vec K) (hp : p < n) (hq : q < n) :
    exc (n + 1) s p q (pad n a b ψ) = pad n a b (exc n s p q ψ) := by
  unfold exc
  rw [ann_pad s a b ψ hq, cre_smul, cre_pad s a b _ hp]
  funext A B
  rw [← mul_assoc, ← pow_add, Even.neg_one_pow ⟨_, rfl⟩, one_mul]

/-! ### reading a padded vector -/

/-- The part of a vector with occupations `a`, `b` of the orbital `n`. -/
def unpad (n : Nat) (a b : Bool) (φ : Vec K) : Vec K := fun A B =>
  (-1) ^ (b.toNat * nOcc 0 n A) * φ (A + a.toNat * 2 ^ n) (B + b.toNat * 2 ^ n)

theorem ext_lt {n A : Nat} (a : Bool) (hA : A < 2 ^ n) : A + a.toNat * 2 ^ n < 2 ^ (n + 1) := by
  rw [pow_succ]; cases a <;> simp <;> omega

theorem ext_bit {n A : Nat} (a : Bool) (hA : A < 2 ^ n) : (A + a.toNat * 2 ^ n).testBit n = a := by
  cases a
  · simpa using Nat.testBit_lt_two_pow hA
  · simp only [Bool.toNat_true, one_mul]
    rw [Nat.add_comm, testBit_add_pow hA]

theorem ext_mod {n A : Nat} (a : Bool) (hA : A < 2 ^ n) : (A + a.toNat * 2 ^ n) % 2 ^ n = A := by
  rw [Nat.add_mul_mod_self_right, Nat.mod_eq_of_lt hA]

theorem ext_occ {n A : Nat} (a : Bool) (hA : A < 2 ^ n) : nOcc 0 n (A + a.toNat * 2 ^ n) = nOcc 0 n A := by
  rw [← nOcc_mod n (A + a.toNat * 2 ^ n), ext_mod a hA]

theorem unpad_pad {n A B : Nat} (a b : Bool) (ψ : Vec K) (hA : A < 2 ^ n) (hB : B < 2 ^ n) :
    unpad n a b (pad n a b ψ) A B = ψ A B := by
  unfold unpad pad
  rw [if_pos ⟨ext_lt a hA, ext_lt b hB, ext_bit a hA, ext_bit b hB⟩, ext_mod a hA, ext_mod b hB, ext_occ a hA, ← mul_assoc, ← pow_add,
    Even.neg_one_pow ⟨_, rfl⟩, one_mul]

theorem unpad_pad_ne {n A B : Nat} {a b a' b' : Bool} (ψ : Vec K) (hA : A < 2 ^ n) (hB : B < 2 ^ n) (h : ¬(a = a' ∧ b = b')) :
    unpad n a b (pad n a' b' ψ) A B = 0 := by
  unfold unpad pad
  rw [if_neg, mul_zero]
  rintro ⟨_, _, h1, h2⟩
  rw [ext_bit a hA] at h1
  rw [ext_bit b hB] at h2
  exact h ⟨h1, h2⟩

/-- After creation of an electron in the added orbital it is not empty. -/
theorem unpad_cre {n A B : Nat} (s a b : Bool) (φ : Vec K) (hA : A < 2 ^ n) (hB : B < 2 ^ n) (h : (if s then b else a) = false) :
    unpad n a b (cre (n + 1) s n φ) A B = 0 := by
  unfold unpad cre
  cases s
  · simp only [Bool.false_eq_true, if_false] at h ⊢
    rw [ext_bit a hA, h]; simp
  · simp only [if_true] at h ⊢
    rw [ext_bit b hB, h]; simp

theorem unpad_zero {n A B : Nat} (a b : Bool) : unpad n a b (fun _ _ => (0 : K)) A B = 0 := by
  unfold unpad; simp

theorem ext_mem {n k A : Nat} (a : Bool) (hA : A ∈ strs n k) : A + a.toNat * 2 ^ n ∈ strs (n + 1) (k + a.toNat) := by
  have hl := (mem_strs.1 hA).1
  rw [mem_strs_pad (ext_bit a hl) (ext_lt a hl), ext_mod a hl]
  exact hA

/-- `read_orbital` reads the part with the given occupations. -/
theorem holds_read {n : Nat} {e : Nat × Nat} {a b : Bool} {c : Arr K} {φ : Vec K}
    (h : Holds (n + 1) (e.1 + a.toNat, e.2 + b.toNat) c φ) : Holds n e (readOrbital c n e.1 e.2 a b) (unpad n a b φ) := by
  intro A hA B hB
  have hA' := ext_mem a hA
  have hB' := ext_mem b hB
  have lA := (mem_strs.1 hA).1
  have lB := (mem_strs.1 hB).1
  have gA := List.getElem?_idxOf hA'
  have gB := List.getElem?_idxOf hB'
  obtain ⟨a1, a2⟩ := side n e.1 a _ _ (params n e.1 e.2 a b).ia (params n e.1 e.2 a b).ja gA
    (by simp only [params]; split <;> rfl) (by simp only [params]; split <;> rfl)
  obtain ⟨b1, b2⟩ := side n e.2 b _ _ (params n e.1 e.2 a b).ib (params n e.1 e.2 a b).jb gB
    (by simp only [params]; split <;> rfl) (by simp only [params]; split <;> rfl)
  have a3 := (a1.2 (ext_bit a lA)).1
  have b3 := (b1.2 (ext_bit b lB)).1
  have a4 := a2 (ext_bit a lA)
  have b4 := b2 (ext_bit b lB)
  rw [ext_mod a lA] at a4
  rw [ext_mod b lB] at b4
  have hh := h _ hA' _ hB'
  unfold readOrbital unpad
  dsimp only at hh ⊢
  rw [← a4, ← b4, Nat.add_sub_cancel' a3, Nat.add_sub_cancel' b3, hh]
  congr 1
  have hn := (mem_strs.1 hA).2
  rw [hn]
  simp only [params]
  cases b
  · simp
  · rcases Nat.mod_two_eq_zero_or_one e.1 with h | h
    · simp [h, Even.neg_one_pow (Nat.even_iff.2 h)]
    · simp [h, Odd.neg_one_pow (Nat.odd_iff.2 h)]

theorem holds_congr {n : Nat} {e : Nat × Nat} {c : Arr K} {φ χ : Vec K} (h : Holds n e c φ)
    (hx : ∀ A < 2 ^ n, ∀ B < 2 ^ n, φ A B = χ A B) : Holds n e c χ := fun A hA B hB => by
  rw [h A hA B hB, hx A (mem_strs.1 hA).1 B (mem_strs.1 hB).1]

end Verif.HalfOp
