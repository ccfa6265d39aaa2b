import Verif.Spec.RdmSmult
import Verif.Lemmas.SpinOp
import Verif.Lemmas.SpinAmp
/-!
# Lemmas: the vectors made by `mup` and `mdown` are the states of a spin multiplet
-/
namespace Verif.SpinFam
open Finset Verif.Spec.RdmSmult Verif.Spec.Spin Verif.SpinOp Verif.Ladder Verif.Wigner Verif.SpinAmp
open Verif.Spec.Fsucc (nOcc nAbove)

theorem mem_bits {n A p : ℕ} : p ∈ bits n A ↔ p < n ∧ A.testBit p = true := by simp [bits]

theorem bits_set {n A i : ℕ} (hi : i < n) (h : A.testBit i = false) : bits n (A ^^^ 2 ^ i) = insert i (bits n A) := by
  ext q
  simp only [mem_bits, mem_insert, Nat.testBit_xor, Nat.testBit_two_pow]
  by_cases hq : i = q
  · subst hq; simp [h, hi]
  · simp [hq, Ne.symm hq]

theorem bits_clear {n A i : ℕ} (h : A.testBit i = true) : bits n (A ^^^ 2 ^ i) = (bits n A).erase i := by
  ext q
  simp only [mem_bits, mem_erase, Nat.testBit_xor, Nat.testBit_two_pow]
  by_cases hq : i = q
  · subst hq; simp [h]
  · simp [hq, Ne.symm hq]

theorem card_bits (n A : ℕ) : (bits n A).card = nOcc 0 n A := by
  unfold bits nOcc; rw [range_eq_Ico]

theorem sgn_bits (n A i : ℕ) : sgn (bits n A) i = (-1) ^ nAbove n A i := by
  unfold sgn nAbove bits
  rw [filter_filter]
  congr 2
  exact filter_congr fun q _ => by rw [and_comm]

theorem low_bits (n : ℕ) (v : Verif.SpinOp.Vec) : lowT n (onStrings n v) = onStrings n (lower v) := by
  funext A B
  unfold lowT
  show _ = lower v (bits n A) (bits n B)
  unfold lower
  rw [show bits n B \ bits n A = (range n).filter (fun i => B.testBit i = true ∧ A.testBit i = false) by
    ext q; simp only [mem_sdiff, mem_bits, mem_filter, mem_range, Bool.eq_false_iff]; tauto, sum_filter, mul_sum]
  refine sum_congr rfl fun i hi => ?_
  rw [mem_range] at hi
  unfold cre Verif.Spec.Tdm.ann onStrings
  by_cases hB : B.testBit i = true
  · by_cases hA : A.testBit i = true
    · simp [hA]
    · rw [Bool.not_eq_true] at hA
      simp only [hB, hA, if_true, Bool.false_eq_true, if_false, and_self, bits_set hi hA, bits_clear hB, sgn_bits, card_bits, pow_add]
      ring
  · simp [hB]

theorem rai_bits (n : ℕ) (v : Verif.SpinOp.Vec) : raiT n (onStrings n v) = onStrings n (raise v) := by
  funext A B
  unfold raiT
  show _ = raise v (bits n A) (bits n B)
  unfold raise
  rw [show bits n A \ bits n B = (range n).filter (fun i => A.testBit i = true ∧ B.testBit i = false) by
    ext q; simp only [mem_sdiff, mem_bits, mem_filter, mem_range, Bool.eq_false_iff]; tauto, sum_filter, mul_sum]
  refine sum_congr rfl fun i hi => ?_
  rw [mem_range] at hi
  unfold cre Verif.Spec.Tdm.ann onStrings
  by_cases hA : A.testBit i = true
  · by_cases hB : B.testBit i = true
    · simp [hB]
    · rw [Bool.not_eq_true] at hB
      simp only [hB, hA, if_true, Bool.false_eq_true, if_false, and_self, bits_set hi hB, bits_clear hA, sgn_bits, card_bits, pow_add,
        sO n i A hi]
      ring
  · simp [hA]

theorem eq_zero_of_sq {norb na nb : ℕ} {v : Verif.SpinOp.Vec} (hv : InSpace norb na nb v)
    (h : ∑ a ∈ (range norb).powerset, ∑ b ∈ (range norb).powerset, v a b * v a b = 0) : v = fun _ _ => 0 := by
  funext a b
  by_cases hab : a ∈ strings norb na ∧ b ∈ strings norb nb
  · have ha := (mem_strings.1 hab.1).1
    have hb := (mem_strings.1 hab.2).1
    rw [sum_eq_zero_iff_of_nonneg fun a _ => sum_nonneg fun b _ => mul_self_nonneg _] at h
    have h1 := h a (mem_powerset.2 ha)
    rw [sum_eq_zero_iff_of_nonneg fun b _ => mul_self_nonneg _] at h1
    exact mul_self_eq_zero.1 (h1 b (mem_powerset.2 hb))
  · exact hv a b hab

theorem raise_zero {norb na nb : ℕ} {v : Verif.SpinOp.Vec} (hv : InSpace norb na nb v) (h : ∀ a b, lower (raise v) a b = 0) :
    raise v = fun _ _ => 0 := by
  refine eq_zero_of_sq (raise_inSpace hv) ?_
  rw [← adjoint norb (raise v) v]
  simp only [h, zero_mul, sum_const_zero]

theorem lower_zero {norb na nb : ℕ} {v : Verif.SpinOp.Vec} (hv : InSpace norb na nb v) (h : ∀ a b, raise (lower v) a b = 0) :
    lower v = fun _ _ => 0 := by
  refine eq_zero_of_sq (lower_inSpace hv) ?_
  rw [adjoint norb v (lower v)]
  simp only [h, mul_zero, sum_const_zero]

/-- The states of the multiplet. -/
noncomputable def states (norb : ℕ) (smult : ℤ) (na0 nb0 S : ℕ) (v0 : Verif.SpinOp.Vec) : ℕ → Verif.SpinOp.Vec
  | 0 => v0
  | j + 1 => if j < S then stepDown norb smult (na0 - j) (nb0 + j) (states norb smult na0 nb0 S v0 j) else fun _ _ => 0

variable {norb na0 nb0 S : ℕ} {v0 : Verif.SpinOp.Vec}

theorem states_spec (hS : (na0 : ℤ) - nb0 = S) (hv : InSpace norb na0 nb0 v0) (hp : SpinPure na0 nb0 (S + 1) v0) :
    ∀ j, j ≤ S → InSpace norb (na0 - j) (nb0 + j) (states norb (S + 1) na0 nb0 S v0 j) ∧
      SpinPure (na0 - j) (nb0 + j) (S + 1) (states norb (S + 1) na0 nb0 S v0 j)
  | 0, _ => ⟨by simpa [states] using hv, by simpa [states] using hp⟩
  | j + 1, h => by
    obtain ⟨h1, h2⟩ := states_spec hS hv hp j (by omega)
    obtain ⟨r1, r2, -, -⟩ := stepDown_spec h1 h2 (by omega) (by omega) (by omega)
    rw [states, if_pos (by omega : j < S)]
    rw [show na0 - (j + 1) = na0 - j - 1 by omega, show nb0 + (j + 1) = nb0 + j + 1 by omega]
    exact ⟨r1, r2⟩

theorem norm_c (hS : (na0 : ℤ) - nb0 = S) {j : ℕ} (hj : j ≤ S) : normSdown (S + 1) (na0 - j) (nb0 + j) = c S j := by
  unfold normSdown c
  dsimp only
  have e : ((na0 - j : ℕ) : ℤ) - ((nb0 + j : ℕ) : ℤ) = (S : ℤ) - 2 * j := by omega
  rw [e]
  congr 1
  push_cast
  ring

theorem c_beyond {S j : ℕ} (h : S ≤ j) : c S j = 0 := by
  unfold c
  refine Real.sqrt_eq_zero_of_nonpos ?_
  have : (S : ℝ) ≤ j := by exact_mod_cast h
  nlinarith [Nat.cast_nonneg (α := ℝ) j]

theorem states_beyond {j : ℕ} (h : S ≤ j) : states norb (S + 1) na0 nb0 S v0 (j + 1) = fun _ _ => 0 := by
  rw [states, if_neg (by omega)]

theorem states_low (hS : (na0 : ℤ) - nb0 = S) (hv : InSpace norb na0 nb0 v0) (hp : SpinPure na0 nb0 (S + 1) v0) (j : ℕ) :
    lower (states norb (S + 1) na0 nb0 S v0 j) = fun a b => c S j * states norb (S + 1) na0 nb0 S v0 (j + 1) a b := by
  rcases lt_trichotomy j S with hj | rfl | hj
  · obtain ⟨h1, h2⟩ := states_spec hS hv hp j (by omega)
    rw [states, if_pos hj]
    unfold stepDown scale
    rw [contractSdown_eq h1, norm_c hS hj.le]
    funext a b
    have := c_pos hj
    rw [mul_div_cancel₀ _ this.ne']
  · obtain ⟨h1, h2⟩ := states_spec hS hv hp j le_rfl
    rw [c_self]
    simp only [zero_mul]
    refine lower_zero h1 fun a b => ?_
    rw [Verif.SpinOp.commutator, card_diff h1, h2]
    have e : ((na0 - j : ℕ) : ℤ) - ((nb0 + j : ℕ) : ℤ) = -(j : ℤ) := by omega
    have e' : ((na0 - j : ℕ) : ℝ) - ((nb0 + j : ℕ) : ℝ) = -(j : ℝ) := by exact_mod_cast e
    rw [e, e']
    push_cast
    ring
  · obtain ⟨k, rfl⟩ : ∃ k, j = k + 1 := ⟨j - 1, by omega⟩
    rw [states_beyond (by omega), states_beyond (by omega)]
    funext a b
    unfold lower
    simp

theorem states_rai0 (hS : (na0 : ℤ) - nb0 = S) (hv : InSpace norb na0 nb0 v0) (hp : SpinPure na0 nb0 (S + 1) v0) :
    raise v0 = fun _ _ => 0 := by
  refine raise_zero hv fun a b => ?_
  rw [hp, hS]
  push_cast
  ring

theorem states_rai (hS : (na0 : ℤ) - nb0 = S) (hv : InSpace norb na0 nb0 v0) (hp : SpinPure na0 nb0 (S + 1) v0) (j : ℕ) :
    raise (states norb (S + 1) na0 nb0 S v0 (j + 1)) = fun a b => c S j * states norb (S + 1) na0 nb0 S v0 j a b := by
  by_cases hj : j < S
  · obtain ⟨h1, h2⟩ := states_spec hS hv hp j hj.le
    obtain ⟨r1, r2, -, r4⟩ := stepDown_spec h1 h2 (by omega) (by omega) (by omega)
    rw [states, if_pos hj]
    funext a b
    have := congrFun (congrFun r4 a) b
    rw [← this]
    unfold stepUp scale
    rw [contractSup_eq r1, sup_eq_sdown _ (by omega), norm_c hS hj.le]
    have := c_pos hj
    rw [mul_div_cancel₀ _ this.ne']
  · rw [states_beyond (by omega), c_beyond (by omega)]
    funext a b
    unfold raise
    simp

theorem states_fam (hS : (na0 : ℤ) - nb0 = S) (hv : InSpace norb na0 nb0 v0) (hp : SpinPure na0 nb0 (S + 1) v0) :
    Fam norb S fun j => onStrings norb (states norb (S + 1) na0 nb0 S v0 j) := by
  refine ⟨fun j => ?_, ?_, fun j => ?_⟩
  · rw [low_bits, states_low hS hv hp]; rfl
  · rw [rai_bits]
    show onStrings norb (raise v0) = _
    rw [states_rai0 hS hv hp]; rfl
  · rw [rai_bits, states_rai hS hv hp]; rfl

theorem states_mdown {na nb : ℕ} (K : ℕ) (hK : K ≤ S) (ha : na + K = na0) (hb : nb = nb0 + K) : ∀ k, k ≤ K →
    mdownLoop norb na nb (S + 1) k (states norb (S + 1) na0 nb0 S v0 (K - k)) = states norb (S + 1) na0 nb0 S v0 K
  | 0, _ => rfl
  | k + 1, hk => by
    rw [mdownLoop_succ]
    have e : stepDown norb (S + 1) (na + (k + 1)) (nb - (k + 1)) (states norb (S + 1) na0 nb0 S v0 (K - (k + 1))) =
        states norb (S + 1) na0 nb0 S v0 (K - k) := by
      rw [show K - k = K - (k + 1) + 1 by omega, states, if_pos (by omega)]
      rw [show na + (k + 1) = na0 - (K - (k + 1)) by omega, show nb - (k + 1) = nb0 + (K - (k + 1)) by omega]
    rw [e]
    exact states_mdown K hK ha hb k (by omega)

/-- The multiplet of a vector of good spin. -/
theorem family {norb na nb S : ℕ} {smult : ℤ} {v : Verif.SpinOp.Vec} (hs : smult = S + 1) (h : SpinOK smult na nb)
    (hv : InSpace norb na nb v) (hp : SpinPure na nb smult v) :
    ∃ D : ℕ → Verif.SpinOp.Vec, Fam norb S (fun j => onStrings norb (D j)) ∧
      (∀ j : ℕ, 2 * (j : ℤ) = S - ((na : ℤ) - nb) → v = D j) ∧
      ∀ (na' nb' j : ℕ), na' + nb' = na + nb → 2 * (j : ℤ) = S - ((na' : ℤ) - nb') → j ≤ S →
        mdown norb na' nb' smult (mup norb na nb smult v) = D j := by
  subst hs
  obtain ⟨l, u, e, p⟩ := h
  have hK : ((((S + 1 : ℤ)) - 1 - ((na : ℤ) - nb)) / 2).toNat ≤ nb := by omega
  obtain ⟨m1, m2, -, m4⟩ := mup_core _ v hK l (by omega) hv hp
  obtain ⟨na0, hna0⟩ : ∃ x, x = na + ((((S + 1 : ℤ)) - 1 - ((na : ℤ) - nb)) / 2).toNat := ⟨_, rfl⟩
  obtain ⟨nb0, hnb0⟩ : ∃ x, x = nb - ((((S + 1 : ℤ)) - 1 - ((na : ℤ) - nb)) / 2).toNat := ⟨_, rfl⟩
  rw [← hna0, ← hnb0] at m1 m2
  have hS : (na0 : ℤ) - nb0 = S := by omega
  have key : ∀ (na' nb' j : ℕ), na' + nb' = na + nb → 2 * (j : ℤ) = S - ((na' : ℤ) - nb') → j ≤ S →
      mdown norb na' nb' (S + 1) (mup norb na nb (S + 1) v) = states norb (S + 1) na0 nb0 S (mup norb na nb (S + 1) v) j := by
    intro na' nb' j hn hj hjS
    have := states_mdown (norb := norb) (na0 := na0) (nb0 := nb0) (S := S) (v0 := mup norb na nb (S + 1) v) (na := na') (nb := nb') j
      hjS (by omega) (by omega) j le_rfl
    rw [Nat.sub_self] at this
    unfold mdown
    rw [show ((((S + 1 : ℤ)) - 1 - ((na' : ℤ) - nb')) / 2).toNat = j by omega]
    exact this
  refine ⟨states norb (S + 1) na0 nb0 S (mup norb na nb (S + 1) v), states_fam hS m1 m2, fun j hj => ?_, key⟩
  rw [← key na nb j rfl hj (by omega)]
  exact m4.symm

end Verif.SpinFam
