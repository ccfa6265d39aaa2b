import Verif.Spec.FragSpin
import Verif.Lemmas.FragTables
import Verif.Lemmas.SpinFam
import Mathlib.Combinatorics.Colex
/-!
# CI arrays and vectors on sets of occupied orbitals
-/
namespace Verif.FragSpin
open Verif.FciRdm Verif.FragTables Verif.Fockspace Verif.RdmSmult Verif.Spec.Tdm Verif.Spec.FciRdm Verif.Spec.RdmSmult Verif.Spec.Spin
open Verif.Spec.Fsucc (nOcc nAbove)

theorem orbs_bits (n A : Nat) : orbs n A = bits n A := rfl

theorem bits_eq {n A : Nat} (h : A < 2 ^ n) : bits n A = A.bitIndices.toFinset := by
  ext p
  rw [Verif.SpinFam.mem_bits, List.mem_toFinset, Nat.mem_bitIndices]
  constructor
  · exact fun h => h.2
  · intro hp
    refine ⟨?_, hp⟩
    by_contra hn
    rw [Nat.testBit_eq_false_of_lt (lt_of_lt_of_le h (Nat.pow_le_pow_right (by norm_num) (by omega)))] at hp
    exact absurd hp (by simp)

theorem mask_bits {n A : Nat} (h : A < 2 ^ n) : mask (bits n A) = A := by
  unfold mask
  rw [bits_eq h, Finset.sum_toFinset_bitIndices_two_pow]

theorem bits_mask {n : Nat} {a : Finset Nat} (h : mask a < 2 ^ n) : bits n (mask a) = a := by
  rw [bits_eq h]
  unfold mask
  rw [Finset.toFinset_bitIndices_sum_two_pow]

theorem bits_mod (n A : Nat) : bits n (A % 2 ^ n) = bits n A := by
  ext p
  rw [Verif.SpinFam.mem_bits, Verif.SpinFam.mem_bits, Nat.testBit_mod_two_pow]
  by_cases h : p < n <;> simp [h]

theorem mask_lt {n : Nat} {a : Finset Nat} (h : a ⊆ Finset.range n) : mask a < 2 ^ n := by
  unfold mask
  calc ∑ p ∈ a, 2 ^ p ≤ ∑ p ∈ Finset.range n, 2 ^ p := Finset.sum_le_sum_of_subset h
    _ < 2 ^ n := by rw [Nat.geomSum_eq (le_refl 2)]; have := Nat.pos_of_ne_zero (pow_ne_zero n (two_ne_zero (α := Nat))); omega

theorem bits_strings {n k A : Nat} : bits n A ∈ SpinOp.strings n k ↔ nOcc 0 n A = k := by
  unfold SpinOp.strings
  rw [Finset.mem_powersetCard, Verif.SpinFam.card_bits]
  exact ⟨fun h => h.2, fun h => ⟨Finset.filter_subset _ _, h⟩⟩

theorem mask_strs {n k : Nat} {a : Finset Nat} : mask a ∈ strs n k ↔ a ∈ SpinOp.strings n k := by
  rw [mem_strs]
  constructor
  · rintro ⟨h1, h2⟩
    rw [← bits_mask h1]
    exact bits_strings.2 h2
  · intro h
    have h' := h
    unfold SpinOp.strings at h
    rw [Finset.mem_powersetCard] at h
    have hl := mask_lt h.1
    refine ⟨hl, ?_⟩
    rw [← bits_mask hl] at h'
    exact bits_strings.1 h'

/-- Two vectors agree on the strings of `n` orbitals. -/
def Agree (n : Nat) (v w : Vec ℝ) : Prop := ∀ A < 2 ^ n, ∀ B < 2 ^ n, v A B = w A B

theorem Agree.symm {n : Nat} {v w : Vec ℝ} (h : Agree n v w) : Agree n w v := fun A hA B hB => (h A hA B hB).symm

theorem agree_toSets (n : Nat) (e : Nat × Nat) (c : Arr ℝ) : Agree n (onStrings n (toSets n e c)) (vec n e c) := by
  intro A hA B hB
  unfold onStrings toSets vec
  rw [mask_bits hA, mask_bits hB]

theorem toSets_inSpace (n : Nat) (e : Nat × Nat) (c : Arr ℝ) : InSpace n e.1 e.2 (toSets n e c) := by
  intro a b h
  unfold toSets
  rw [if_neg]
  rw [mask_strs, mask_strs]
  exact h

theorem agree_ofSets {n : Nat} {e : Nat × Nat} {v : SpinOp.Vec} (h : InSpace n e.1 e.2 v) :
    Agree n (vec n e (ofSets n e v)) (onStrings n v) := by
  intro A hA B hB
  unfold vec
  by_cases hs : A ∈ strs n e.1 ∧ B ∈ strs n e.2
  · rw [if_pos hs]
    unfold ofSets onStrings
    rw [List.getD_eq_getElem?_getD, List.getD_eq_getElem?_getD, List.getElem?_idxOf hs.1, List.getElem?_idxOf hs.2]
    rfl
  · rw [if_neg hs]
    unfold onStrings
    rw [h]
    rw [bits_strings, bits_strings]
    rw [mem_strs, mem_strs] at hs
    exact fun h => hs ⟨⟨hA, h.1⟩, hB, h.2⟩

theorem agree_ann {n : Nat} {v w : Vec ℝ} (h : Agree n v w) (s : Bool) {p : Nat} (hp : p < n) : Agree n (ann n s p v) (ann n s p w) := by
  have hx : ∀ D, D < 2 ^ n → D ^^^ 2 ^ p < 2 ^ n := fun D hD => Nat.xor_lt_two_pow hD (Nat.pow_lt_pow_right (by norm_num) hp)
  intro A hA B hB
  unfold ann
  rw [h A hA _ (hx B hB), h _ (hx A hA) B hB]

theorem agree_ovl {n : Nat} {v w v' w' : Vec ℝ} (h : Agree n v w) (h' : Agree n v' w') : ovl n v v' = ovl n w w' := by
  unfold ovl
  refine Finset.sum_congr rfl fun A hA => Finset.sum_congr rfl fun B hB => ?_
  rw [Finset.mem_range] at hA hB
  rw [h A hA B hB, h' A hA B hB]

theorem agree_tdm1 {n : Nat} {v w v' w' : Vec ℝ} (h : Agree n v w) (h' : Agree n v' w') (s : Bool) {p q : Nat} (hp : p < n)
    (hq : q < n) : tdm1 n v v' s p q = tdm1 n w w' s p q :=
  agree_ovl (agree_ann h s hp) (agree_ann h' s hq)

theorem agree_tdm2 {n : Nat} {v w v' w' : Vec ℝ} (h : Agree n v w) (h' : Agree n v' w') (s t : Bool) {p q r u : Nat} (hp : p < n)
    (hq : q < n) (hr : r < n) (hu : u < n) : tdm2 n v v' s t p q r u = tdm2 n w w' s t p q r u :=
  agree_ovl (agree_ann (agree_ann h s hp) t hr) (agree_ann (agree_ann h' s hq) t hu)

theorem agree_dotS (n : Nat) (v w : SpinOp.Vec) : dotS n v w = ovl n (onStrings n v) (onStrings n w) := by
  have key : ∀ f : Finset Nat → ℝ, ∑ a ∈ (Finset.range n).powerset, f a = ∑ A ∈ Finset.range (2 ^ n), f (bits n A) := by
    intro f
    refine (Finset.sum_bij (fun A _ => bits n A) ?_ ?_ ?_ ?_).symm
    · intro A _
      exact Finset.mem_powerset.2 (Finset.filter_subset _ _)
    · intro A hA B hB hAB
      rw [← mask_bits (Finset.mem_range.1 hA), ← mask_bits (Finset.mem_range.1 hB), hAB]
    · intro a ha
      have hl := mask_lt (Finset.mem_powerset.1 ha)
      exact ⟨mask a, Finset.mem_range.2 hl, bits_mask hl⟩
    · intro A _
      rfl
  unfold dotS ovl onStrings
  rw [key]
  exact Finset.sum_congr rfl fun A _ => key _

end Verif.FragSpin
