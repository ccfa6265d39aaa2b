import Verif.Spec.FciRdm
import Verif.Props.Dummy
import Verif.Lemmas.Tdm
import Verif.Lemmas.TdmProd
import Mathlib.Tactic.Ring
import Mathlib.Tactic.LinearCombination
/-!
# Vectors padded with a dummy orbital
-/
namespace Verif.FciRdm
open Verif.Dummy Verif.Fockspace Verif.Spec.Tdm Verif.Spec.FciRdm Verif.Tdm Verif.Props.Dummy
open Verif.Spec.Fsucc (nOcc nAbove)

variable {K : Type} [CommRing K]

/-- The vector with an added orbital `n` of occupations `a`, `b`. -/
def pad (n : Nat) (a b : Bool) (ψ : Vec K) : Vec K := fun A B =>
  if A < 2 ^ (n + 1) ∧ B < 2 ^ (n + 1) ∧ A.testBit n = a ∧ B.testBit n = b then
    (-1) ^ (b.toNat * nOcc 0 n A) * ψ (A % 2 ^ n) (B % 2 ^ n) else 0

theorem mem_strs_pad {n k : Nat} {a : Bool} {A : Nat} (hb : A.testBit n = a) (hA : A < 2 ^ (n + 1)) :
    A ∈ strs (n + 1) (k + a.toNat) ↔ A % 2 ^ n ∈ strs n k := by
  rw [mem_strs, mem_strs, nOcc_succ, nOcc_mod, hb]
  have : A % 2 ^ n < 2 ^ n := Nat.mod_lt _ (by positivity)
  cases a <;> simp [hA, this]

theorem vec_addOrbital (n : Nat) (e : Nat × Nat) (a b : Bool) (c : Arr K) :
    vec (n + 1) (e.1 + a.toNat, e.2 + b.toNat) (addOrbital c n e.1 e.2 a b) = pad n a b (vec n e c) := by
  funext A B
  unfold vec pad
  dsimp only
  by_cases hin : A ∈ strs (n + 1) (e.1 + a.toNat) ∧ B ∈ strs (n + 1) (e.2 + b.toNat)
  · rw [if_pos hin]
    obtain ⟨h1, h2⟩ := hin
    have hA := (mem_strs.1 h1).1
    have hB := (mem_strs.1 h2).1
    have gA : (strs (n + 1) (e.1 + a.toNat))[(strs (n + 1) (e.1 + a.toNat)).idxOf A]? = some A :=
      List.getElem?_idxOf h1
    have gB : (strs (n + 1) (e.2 + b.toNat))[(strs (n + 1) (e.2 + b.toNat)).idxOf B]? = some B :=
      List.getElem?_idxOf h2
    obtain ⟨a1, a2⟩ := side n e.1 a _ A (params n e.1 e.2 a b).ia (params n e.1 e.2 a b).ja gA
      (by simp only [params]; split <;> rfl) (by simp only [params]; split <;> rfl)
    obtain ⟨b1, b2⟩ := side n e.2 b _ B (params n e.1 e.2 a b).ib (params n e.1 e.2 a b).jb gB
      (by simp only [params]; split <;> rfl) (by simp only [params]; split <;> rfl)
    by_cases hbit : A.testBit n = a ∧ B.testBit n = b
    · rw [if_pos ⟨hA, hB, hbit⟩, if_pos ⟨(mem_strs_pad hbit.1 hA).1 h1, (mem_strs_pad hbit.2 hB).1 h2⟩]
      unfold addOrbital
      rw [if_pos ⟨(a1.2 hbit.1).1, (a1.2 hbit.1).2, b1.2 hbit.2⟩, a2 hbit.1, b2 hbit.2]
      congr 1
      have hn : nOcc 0 n A = e.1 := by
        have := (mem_strs.1 h1).2
        rw [nOcc_succ, hbit.1] at this
        cases a <;> simpa using this
      rw [hn]
      simp only [params]
      cases b
      · simp
      · rcases Nat.mod_two_eq_zero_or_one e.1 with h | h
        · simp [h, Even.neg_one_pow (Nat.even_iff.2 h)]
        · simp [h, Odd.neg_one_pow (Nat.odd_iff.2 h)]
    · rw [if_neg (fun h => hbit h.2.2)]
      unfold addOrbital
      rw [if_neg]
      rintro ⟨c1, c2, c3, c4⟩
      exact hbit ⟨a1.1 ⟨c1, c2⟩, b1.1 ⟨c3, c4⟩⟩
  · rw [if_neg hin]
    by_cases hc : A < 2 ^ (n + 1) ∧ B < 2 ^ (n + 1) ∧ A.testBit n = a ∧ B.testBit n = b
    · rw [if_pos hc, if_neg, mul_zero]
      rintro ⟨h1, h2⟩
      exact hin ⟨(mem_strs_pad hc.2.2.1 hc.1).2 h1, (mem_strs_pad hc.2.2.2 hc.2.1).2 h2⟩
    · rw [if_neg hc]

theorem xor_lt {n p A : Nat} (hp : p < n) : A ^^^ 2 ^ p < 2 ^ n ↔ A < 2 ^ n := by
  have h2 : 2 ^ p < 2 ^ n := Nat.pow_lt_pow_right (by omega) hp
  constructor
  · intro h
    have := Nat.xor_lt_two_pow h h2
    rwa [Nat.xor_assoc, Nat.xor_self, Nat.xor_zero] at this
  · intro h
    exact Nat.xor_lt_two_pow h h2

theorem xor_mod {n p A : Nat} (hp : p < n) : (A ^^^ 2 ^ p) % 2 ^ n = (A % 2 ^ n) ^^^ 2 ^ p := by
  apply Nat.eq_of_testBit_eq
  intro i
  simp only [Nat.testBit_mod_two_pow, Nat.testBit_xor, Nat.testBit_two_pow]
  by_cases hi : i < n
  · simp [hi]
  · have : p ≠ i := by omega
    simp [hi, this]

theorem xor_mod_self {n A : Nat} : (A ^^^ 2 ^ n) % 2 ^ n = A % 2 ^ n := by
  apply Nat.eq_of_testBit_eq
  intro i
  simp only [Nat.testBit_mod_two_pow, Nat.testBit_xor, Nat.testBit_two_pow]
  by_cases hi : i < n
  · have : n ≠ i := by omega
    simp [hi, this]
  · simp [hi]

theorem testBit_xor_ne {n p A : Nat} (h : p ≠ n) : (A ^^^ 2 ^ p).testBit n = A.testBit n := by
  rw [Nat.testBit_xor, Nat.testBit_two_pow]; simp [h]

theorem testBit_xor_self' {p A : Nat} : (A ^^^ 2 ^ p).testBit p = !A.testBit p := by
  rw [Nat.testBit_xor, Nat.testBit_two_pow]; simp

theorem testBit_mod {n p A : Nat} (hp : p < n) : (A % 2 ^ n).testBit p = A.testBit p := by
  rw [Nat.testBit_mod_two_pow]; simp [hp]

theorem nAbove_succ {n p D : Nat} (hp : p < n) : nAbove (n + 1) D p = nAbove n (D % 2 ^ n) p + (D.testBit n).toNat := by
  rw [nAbove_eq, nAbove_eq, nOcc_trans (show p + 1 ≤ n by omega) (show n ≤ n + 1 by omega)]
  congr 1
  · apply nOcc_congr
    intro i _ hi
    rw [testBit_mod hi]
  · have := nOcc_trans (Nat.zero_le n) (show n ≤ n + 1 by omega) D
    rw [nOcc_succ] at this
    cases hb : D.testBit n <;> simp [hb] at this ⊢ <;> omega

theorem nAbove_top (n D : Nat) : nAbove (n + 1) D n = 0 := by
  rw [nAbove_eq]; simp [nOcc]

theorem nOcc_xor_above {n p D : Nat} (h : n ≤ p) : nOcc 0 n (D ^^^ 2 ^ p) = nOcc 0 n D := by
  apply nOcc_congr
  intro i _ hi
  exact testBit_xor_ne (by omega)

/-- An orbital other than the added one: the operator passes the added electrons. -/
theorem ann_pad {n p : Nat} (s a b : Bool) (ψ : Vec K) (hp : p < n) :
    ann (n + 1) s p (pad n a b ψ) = fun A B => (-1) ^ (a.toNat + b.toNat) * pad n a b (ann n s p ψ) A B := by
  funext A B
  have hp1 : p < n + 1 := by omega
  cases s
  · simp only [ann, pad, Bool.false_eq_true, if_false, xor_lt hp1, testBit_xor_ne (show p ≠ n by omega), testBit_mod hp]
    by_cases hc : A < 2 ^ (n + 1) ∧ B < 2 ^ (n + 1) ∧ A.testBit n = a ∧ B.testBit n = b
    · rw [if_pos hc, if_pos hc]
      by_cases hb : A.testBit p
      · rw [if_pos hb, if_pos hb]; ring
      · rw [if_neg hb, if_neg hb, nOcc_xor n p A hp (by simpa using hb), nAbove_succ hp, xor_mod hp, hc.2.2.1]
        cases a <;> cases b <;> simp <;> ring
    · rw [if_neg hc, if_neg hc]; simp
  · simp only [ann, pad, if_true, xor_lt hp1, testBit_xor_ne (show p ≠ n by omega), testBit_mod hp]
    by_cases hc : A < 2 ^ (n + 1) ∧ B < 2 ^ (n + 1) ∧ A.testBit n = a ∧ B.testBit n = b
    · rw [if_pos hc, if_pos hc]
      by_cases hb : B.testBit p
      · rw [if_pos hb, if_pos hb]; ring
      · rw [if_neg hb, if_neg hb, nAbove_succ hp, xor_mod hp, hc.2.2.2, nOcc_succ, hc.2.2.1, nOcc_mod]
        cases a <;> cases b <;> simp <;> ring
    · rw [if_neg hc, if_neg hc]; simp

/-- Removing the added spin-up electron. -/
theorem ann_pad_up {n : Nat} (b : Bool) (ψ : Vec K) : ann (n + 1) false n (pad n true b ψ) = pad n false b ψ := by
  funext A B
  simp only [ann, pad, Bool.false_eq_true, if_false, xor_lt (show n < n + 1 by omega), testBit_xor_self', nAbove_top, pow_zero,
    one_mul, nOcc_xor_above (Nat.le_refl n), xor_mod_self]
  cases hb : A.testBit n
  · by_cases hc : A < 2 ^ (n + 1) ∧ B < 2 ^ (n + 1) ∧ B.testBit n = b
    · simp [hc]
    · simp only [Bool.not_false, true_and, Bool.false_eq_true, if_false]
  · simp

/-- Removing the added spin-down electron. -/
theorem ann_pad_down {n : Nat} (a : Bool) (ψ : Vec K) :
    ann (n + 1) true n (pad n a true ψ) = fun A B => (-1) ^ a.toNat * pad n a false ψ A B := by
  funext A B
  simp only [ann, pad, if_true, xor_lt (show n < n + 1 by omega), testBit_xor_self', nAbove_top, xor_mod_self]
  cases hb : B.testBit n
  · by_cases hc : A < 2 ^ (n + 1) ∧ B < 2 ^ (n + 1) ∧ A.testBit n = a
    · obtain ⟨h1, h2, h3⟩ := hc
      have hs : ((-1 : K) ^ nOcc 0 n A) * (-1) ^ nOcc 0 n A = 1 := by rw [← pow_add, Even.neg_one_pow ⟨_, rfl⟩]
      simp only [h1, h2, h3, nOcc_succ, Bool.not_false, Bool.false_eq_true, if_false, and_self, if_true, Bool.toNat_true, one_mul,
        Bool.toNat_false, zero_mul, pow_zero, add_zero]
      have h4 : (if a = true then 1 else 0) = a.toNat := by cases a <;> rfl
      rw [h4, pow_add]
      linear_combination (-1) ^ a.toNat * ψ (A % 2 ^ n) (B % 2 ^ n) * hs
    · simp only [Bool.false_eq_true, if_false]
      rw [if_neg (fun h => hc ⟨h.1, h.2.1, h.2.2.1⟩), if_neg (fun h => hc ⟨h.1, h.2.1, h.2.2.1⟩)]
      simp
  · simp

theorem sum_range_two (n : Nat) (f : Nat → K) :
    ∑ A ∈ Finset.range (2 ^ (n + 1)), f A = ∑ A ∈ Finset.range (2 ^ n), f A + ∑ A ∈ Finset.range (2 ^ n), f (2 ^ n + A) := by
  rw [pow_succ, Nat.mul_two, Finset.sum_range_add]

theorem half_sum (n : Nat) (a : Bool) (f : Nat → K) :
    ∑ A ∈ Finset.range (2 ^ (n + 1)), (if A.testBit n = a then f (A % 2 ^ n) else 0) = ∑ A ∈ Finset.range (2 ^ n), f A := by
  rw [sum_range_two]
  have h1 : ∀ A ∈ Finset.range (2 ^ n), (if A.testBit n = a then f (A % 2 ^ n) else 0) = if a then 0 else f A := by
    intro A hA
    rw [Finset.mem_range] at hA
    rw [Nat.testBit_lt_two_pow hA, Nat.mod_eq_of_lt hA]
    cases a <;> simp
  have h2 : ∀ A ∈ Finset.range (2 ^ n), (if (2 ^ n + A).testBit n = a then f ((2 ^ n + A) % 2 ^ n) else 0) = if a then f A else 0 := by
    intro A hA
    rw [Finset.mem_range] at hA
    rw [testBit_add_pow hA, Nat.add_mod_left, Nat.mod_eq_of_lt hA]
    cases a <;> simp
  rw [Finset.sum_congr rfl h1, Finset.sum_congr rfl h2]
  cases a <;> simp

theorem ovl_pad (n : Nat) (a b : Bool) (φ ψ : Vec K) : ovl (n + 1) (pad n a b φ) (pad n a b ψ) = ovl n φ ψ := by
  unfold ovl
  rw [← half_sum n a]
  apply Finset.sum_congr rfl
  intro A hA
  rw [Finset.mem_range] at hA
  by_cases ha : A.testBit n = a
  · rw [if_pos ha, ← half_sum n b]
    apply Finset.sum_congr rfl
    intro B hB
    rw [Finset.mem_range] at hB
    by_cases hb : B.testBit n = b
    · rw [if_pos hb]
      unfold pad
      rw [if_pos ⟨hA, hB, ha, hb⟩, if_pos ⟨hA, hB, ha, hb⟩]
      have hs : ((-1 : K) ^ (b.toNat * nOcc 0 n A)) * (-1) ^ (b.toNat * nOcc 0 n A) = 1 := by
        rw [← pow_add, Even.neg_one_pow ⟨_, rfl⟩]
      linear_combination φ (A % 2 ^ n) (B % 2 ^ n) * ψ (A % 2 ^ n) (B % 2 ^ n) * hs
    · rw [if_neg hb]
      unfold pad
      rw [if_neg (fun h => hb h.2.2.2), zero_mul]
  · rw [if_neg ha]
    apply Finset.sum_eq_zero
    intro B _
    unfold pad
    rw [if_neg (fun h => ha h.2.2.1), zero_mul]

end Verif.FciRdm
