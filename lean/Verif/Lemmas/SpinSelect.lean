import Verif.Lemmas.SpinFam
import Mathlib.Tactic.LinearCombination
/-!
# Strings of annihilation operators change the spin of a state by at most their length
-/
namespace Verif.SpinAmp
open Verif.Spec.Tdm Verif.Tdm Verif.Ladder Verif.Wigner

/-- Spin-up minus spin-down operators of a string. -/
def spn : Word → ℤ
  | [] => 0
  | x :: w => (if x.1 then -1 else 1) + spn w

/-- Number of operators of spin `s`. -/
def cnt (s : Bool) : Word → ℕ
  | [] => 0
  | x :: w => (if x.1 = s then 1 else 0) + cnt s w

theorem spn_bound (w : Word) : spn w ≤ w.length ∧ -(w.length : ℤ) ≤ spn w := by
  induction w with
  | nil => simp [spn]
  | cons x w ih =>
    simp only [spn, List.length_cons]
    push_cast
    split <;> omega

theorem mem_dU {N : ℕ} {l w : Word} (hl : Ok N l) (h : w ∈ dU l) :
    Ok N w ∧ w.length = l.length ∧ cnt false w + 1 = cnt false l ∧ spn w = spn l - 2 := by
  induction l generalizing w with
  | nil => simp [dU] at h
  | cons x l ih =>
    have hx : x.2 < N := hl x (by simp)
    have hl' : Ok N l := fun y hy => hl y (by simp [hy])
    simp only [dU, List.mem_append, List.mem_map] at h
    rcases h with h | ⟨u, hu, rfl⟩
    · obtain ⟨s, p⟩ := x
      cases s
      · simp at h
        subst h
        refine ⟨fun y hy => ?_, rfl, ?_, ?_⟩
        · rcases List.mem_cons.mp hy with rfl | hy
          · exact hx
          · exact hl' y hy
        · simp [cnt]; omega
        · simp [spn]; omega
      · simp at h
    · obtain ⟨a, b, c, d⟩ := ih hl' hu
      refine ⟨fun y hy => ?_, by simp [b], ?_, ?_⟩
      · rcases List.mem_cons.mp hy with rfl | hy
        · exact hx
        · exact a y hy
      · simp only [cnt]; omega
      · simp only [spn]; omega

theorem mem_dL {N : ℕ} {l w : Word} (hl : Ok N l) (h : w ∈ dL l) :
    Ok N w ∧ w.length = l.length ∧ cnt true w + 1 = cnt true l ∧ spn w = spn l + 2 := by
  induction l generalizing w with
  | nil => simp [dL] at h
  | cons x l ih =>
    have hx : x.2 < N := hl x (by simp)
    have hl' : Ok N l := fun y hy => hl y (by simp [hy])
    simp only [dL, List.mem_append, List.mem_map] at h
    rcases h with h | ⟨u, hu, rfl⟩
    · obtain ⟨s, p⟩ := x
      cases s
      · simp at h
      · simp at h
        subst h
        refine ⟨fun y hy => ?_, rfl, ?_, ?_⟩
        · rcases List.mem_cons.mp hy with rfl | hy
          · exact hx
          · exact hl' y hy
        · simp [cnt]; omega
        · simp [spn]; omega
    · obtain ⟨a, b, c, d⟩ := ih hl' hu
      refine ⟨fun y hy => ?_, by simp [b], ?_, ?_⟩
      · rcases List.mem_cons.mp hy with rfl | hy
        · exact hx
        · exact a y hy
      · simp only [cnt]; omega
      · simp only [spn]; omega

theorem amp_sel_aux {N S' S : ℕ} {φ ψ : ℕ → Vec ℝ} (hφ : Fam N S' φ) (hψ : Fam N S ψ) (m : ℕ) : ∀ (n : ℕ) (l r : Word), Ok N l → Ok N r →
    cnt false l + cnt true r = m → S + l.length + r.length < S' → ∀ i j : ℕ, S - j = n → j ≤ S →
    (S' : ℤ) - 2 * i - spn l = S - 2 * j - spn r → amp N φ ψ l r i j = 0 := by
  induction m using Nat.strong_induction_on with
  | _ m ihm =>
    intro n
    induction n with
    | zero =>
      intro l r hl hr hm hS i j hn hj hij
      have hjS : j = S := by omega
      subst hjS
      have bl := spn_bound l
      have br := spn_bound r
      have hi : i < S' := by omega
      have h := (amp_dn hφ hψ hl hr).succ i j
      rw [c_self, zero_mul, sub_zero] at h
      have g1 : ((dU l).map fun w => amp N φ ψ w r (i + 1) j).sum = 0 := List.sum_eq_zero (by
        intro x hx
        obtain ⟨w, hw, rfl⟩ := List.mem_map.mp hx
        obtain ⟨a, b, c, d⟩ := mem_dU hl hw
        exact ihm (cnt false w + cnt true r) (by omega) _ w r a hr rfl (by omega) (i + 1) j rfl hj (by push_cast; omega))
      have g2 : ((dL r).map fun w => amp N φ ψ l w (i + 1) j).sum = 0 := List.sum_eq_zero (by
        intro x hx
        obtain ⟨w, hw, rfl⟩ := List.mem_map.mp hx
        obtain ⟨a, b, c, d⟩ := mem_dL hr hw
        exact ihm (cnt false l + cnt true w) (by omega) _ l w hl a rfl (by omega) (i + 1) j rfl hj (by push_cast; omega))
      rw [g1, g2, sub_zero] at h
      exact (mul_eq_zero.mp h).resolve_left (c_pos hi).ne'
    | succ n ihn =>
      intro l r hl hr hm hS i j hn hj hij
      have bl := spn_bound l
      have br := spn_bound r
      have hi : i < S' := by omega
      have h := (amp_dn hφ hψ hl hr).succ i j
      rw [ihn l r hl hr hm hS (i + 1) (j + 1) (by omega) (by omega) (by push_cast; omega), mul_zero, sub_zero] at h
      have g1 : ((dU l).map fun w => amp N φ ψ w r (i + 1) j).sum = 0 := List.sum_eq_zero (by
        intro x hx
        obtain ⟨w, hw, rfl⟩ := List.mem_map.mp hx
        obtain ⟨a, b, c, d⟩ := mem_dU hl hw
        exact ihm (cnt false w + cnt true r) (by omega) _ w r a hr rfl (by omega) (i + 1) j rfl hj (by push_cast; omega))
      have g2 : ((dL r).map fun w => amp N φ ψ l w (i + 1) j).sum = 0 := List.sum_eq_zero (by
        intro x hx
        obtain ⟨w, hw, rfl⟩ := List.mem_map.mp hx
        obtain ⟨a, b, c, d⟩ := mem_dL hr hw
        exact ihm (cnt false l + cnt true w) (by omega) _ l w hl a rfl (by omega) (i + 1) j rfl hj (by push_cast; omega))
      rw [g1, g2, sub_zero] at h
      exact (mul_eq_zero.mp h).resolve_left (c_pos hi).ne'

/-- Selection rule for members of two multiplets. -/
theorem amp_sel {N S' S : ℕ} {φ ψ : ℕ → Vec ℝ} (hφ : Fam N S' φ) (hψ : Fam N S ψ) {l r : Word} (hl : Ok N l) (hr : Ok N r) {i j : ℕ}
    (hi : i ≤ S') (hj : j ≤ S) (hij : (S' : ℤ) - 2 * i - spn l = S - 2 * j - spn r) (h : amp N φ ψ l r i j ≠ 0) :
    ((S' : ℤ) - S).natAbs ≤ l.length + r.length := by
  by_contra hn
  rcases Nat.lt_or_ge (S + l.length + r.length) S' with h1 | h1
  · exact h (amp_sel_aux hφ hψ _ _ l r hl hr rfl h1 i j rfl hj hij)
  · rw [amp_comm] at h
    exact h (amp_sel_aux hψ hφ _ _ r l hr hl rfl (by omega) j i rfl hi (by omega))

end Verif.SpinAmp

namespace Verif.SpinFam
open Verif.Spec.Tdm Verif.Spec.RdmSmult Verif.Spec.Spin Verif.SpinAmp

/-- The same for states given by their numbers of electrons and multiplicities. -/
theorem state_sel {N na nb na' nb' : ℕ} {sm sm' : ℤ} {v v' : Verif.SpinOp.Vec} (h : State N na nb sm v) (h' : State N na' nb' sm' v')
    {l r : Word} (hl : Ok N l) (hr : Ok N r) (hm : (na : ℤ) - nb - spn l = (na' : ℤ) - nb' - spn r)
    (hne : ovl N (anns N l (onStrings N v)) (anns N r (onStrings N v')) ≠ 0) : (sm - sm').natAbs ≤ l.length + r.length := by
  have a1 := h.ok.low
  have a2 := h.ok.high
  have a3 := h.ok.parity
  have b1 := h'.ok.low
  have b2 := h'.ok.high
  have b3 := h'.ok.parity
  obtain ⟨S, hS⟩ : ∃ S : ℕ, sm = S + 1 := ⟨(sm - 1).toNat, by omega⟩
  obtain ⟨S', hS'⟩ : ∃ S : ℕ, sm' = S + 1 := ⟨(sm' - 1).toNat, by omega⟩
  obtain ⟨D, d1, d2, _⟩ := family hS h.ok h.inSpace h.pure
  obtain ⟨D', e1, e2, _⟩ := family hS' h'.ok h'.inSpace h'.pure
  obtain ⟨i, hi⟩ : ∃ i : ℕ, 2 * (i : ℤ) = S - ((na : ℤ) - nb) := ⟨((S - ((na : ℤ) - nb)) / 2).toNat, by omega⟩
  obtain ⟨j, hj⟩ : ∃ j : ℕ, 2 * (j : ℤ) = S' - ((na' : ℤ) - nb') := ⟨((S' - ((na' : ℤ) - nb')) / 2).toNat, by omega⟩
  rw [d2 i hi, e2 j hj] at hne
  have := amp_sel d1 e1 hl hr (i := i) (j := j) (by omega) (by omega) (by omega) hne
  omega

end Verif.SpinFam
