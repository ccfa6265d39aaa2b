import Verif.Lemmas.SpinAmp
/-!
# Lemmas: operators of low rank do not connect multiplets of very different spin
-/
namespace Verif.Wigner

theorem Up.van {S' S d : ℕ} {F G : ℕ → ℕ → ℝ} (h : Up S' S F G) (hG : ∀ i j, j + d ≤ i → i ≤ S' → G i j = 0) :
    ∀ j i, j + d + 1 ≤ i → i ≤ S' → F i j = 0
  | 0, 0, hi, _ => by omega
  | j + 1, 0, hi, _ => by omega
  | 0, i + 1, hi, hS => by
    have := h.zero i
    rw [hG i 0 (by omega) (by omega)] at this
    exact (mul_eq_zero.1 this).resolve_left (c_pos (by omega)).ne'
  | j + 1, i + 1, hi, hS => by
    have := h.succ i j
    rw [hG i (j + 1) (by omega) (by omega), Up.van h hG j i (by omega) (by omega), mul_zero, sub_zero] at this
    exact (mul_eq_zero.1 this).resolve_left (c_pos (by omega)).ne'

theorem Dn.lin {S' S : ℕ} {F G F' G' : ℕ → ℕ → ℝ} (h : Dn S' S F G) (h' : Dn S' S F' G') (x y : ℝ) {H K : ℕ → ℕ → ℝ}
    (hH : ∀ i j, H i j = x * F i j + y * F' i j) (hK : ∀ i j, K i j = x * G i j + y * G' i j) : Dn S' S H K := by
  constructor
  · intro j; rw [hH, hK]; linear_combination x * h.zero j + y * h'.zero j
  · intro i j; rw [hH, hH, hK]; linear_combination x * h.succ i j + y * h'.succ i j

theorem Up.lin {S' S : ℕ} {F G F' G' : ℕ → ℕ → ℝ} (h : Up S' S F G) (h' : Up S' S F' G') (x y : ℝ) {H K : ℕ → ℕ → ℝ}
    (hH : ∀ i j, H i j = x * F i j + y * F' i j) (hK : ∀ i j, K i j = x * G i j + y * G' i j) : Up S' S H K := by
  constructor
  · intro j; rw [hH, hK]; linear_combination x * h.zero j + y * h'.zero j
  · intro i j; rw [hH, hH, hK]; linear_combination x * h.succ i j + y * h'.succ i j

theorem Dn.eqv {S' S : ℕ} {F G H K : ℕ → ℕ → ℝ} (h : Dn S' S F G) (hH : ∀ i j, H i j = F i j) (hK : ∀ i j, K i j = G i j) :
    Dn S' S H K := by
  have e1 : H = F := by funext i j; exact hH i j
  have e2 : K = G := by funext i j; exact hK i j
  rw [e1, e2]; exact h

theorem Up.eqv {S' S : ℕ} {F G H K : ℕ → ℕ → ℝ} (h : Up S' S F G) (hH : ∀ i j, H i j = F i j) (hK : ∀ i j, K i j = G i j) :
    Up S' S H K := by
  have e1 : H = F := by funext i j; exact hH i j
  have e2 : K = G := by funext i j; exact hK i j
  rw [e1, e2]; exact h

end Verif.Wigner

namespace Verif.SpinAmp
open Verif.Spec.Tdm Verif.Tdm Verif.Ladder Verif.Wigner

def nB (w : Word) : ℕ := w.countP (·.1)
def nA (w : Word) : ℕ := w.countP (fun x => !x.1)

theorem dL_count : ∀ w : Word, ∀ w' ∈ dL w, nB w' + 1 = nB w
  | [], w', h => by simp [dL] at h
  | x :: w, w', h => by
    rw [dL, List.mem_append] at h
    rcases h with h | h
    · cases hx : x.1
      · simp [hx] at h
      · simp only [hx, if_true, List.mem_singleton] at h
        subst h
        simp [nB, hx]
    · obtain ⟨u, hu, rfl⟩ := List.mem_map.1 h
      have := dL_count w u hu
      unfold nB at this ⊢
      rw [List.countP_cons, List.countP_cons]
      omega

theorem dU_count : ∀ w : Word, ∀ w' ∈ dU w, nA w' + 1 = nA w
  | [], w', h => by simp [dU] at h
  | x :: w, w', h => by
    rw [dU, List.mem_append] at h
    rcases h with h | h
    · cases hx : x.1
      · simp only [hx, Bool.false_eq_true, if_false, List.mem_singleton] at h
        subst h
        simp [nA, hx]
      · simp [hx] at h
    · obtain ⟨u, hu, rfl⟩ := List.mem_map.1 h
      have := dU_count w u hu
      unfold nA at this ⊢
      rw [List.countP_cons, List.countP_cons]
      omega

theorem dL_ok {N : ℕ} : ∀ w : Word, Ok N w → ∀ w' ∈ dL w, Ok N w'
  | [], _, w', h => by simp [dL] at h
  | x :: w, hw, w', h => by
    have hx := hw x List.mem_cons_self
    have ht : Ok N w := fun y hy => hw y (List.mem_cons_of_mem _ hy)
    rw [dL, List.mem_append] at h
    rcases h with h | h
    · cases hb : x.1
      · simp [hb] at h
      · simp only [hb, if_true, List.mem_singleton] at h
        subst h
        intro y hy
        rcases List.mem_cons.1 hy with rfl | hy
        · exact hx
        · exact ht y hy
    · obtain ⟨u, hu, rfl⟩ := List.mem_map.1 h
      intro y hy
      rcases List.mem_cons.1 hy with rfl | hy
      · exact hx
      · exact dL_ok w ht u hu y hy

theorem dU_ok {N : ℕ} : ∀ w : Word, Ok N w → ∀ w' ∈ dU w, Ok N w'
  | [], _, w', h => by simp [dU] at h
  | x :: w, hw, w', h => by
    have hx := hw x List.mem_cons_self
    have ht : Ok N w := fun y hy => hw y (List.mem_cons_of_mem _ hy)
    rw [dU, List.mem_append] at h
    rcases h with h | h
    · cases hb : x.1
      · simp only [hb, Bool.false_eq_true, if_false, List.mem_singleton] at h
        subst h
        intro y hy
        rcases List.mem_cons.1 hy with rfl | hy
        · exact hx
        · exact ht y hy
      · simp [hb] at h
    · obtain ⟨u, hu, rfl⟩ := List.mem_map.1 h
      intro y hy
      rcases List.mem_cons.1 hy with rfl | hy
      · exact hx
      · exact dU_ok w ht u hu y hy

theorem sum_zero {L : List Word} {f : Word → ℝ} (h : ∀ w ∈ L, f w = 0) : (L.map f).sum = 0 := by
  induction L with
  | nil => rfl
  | cons w L ih =>
    rw [List.map_cons, List.sum_cons, h w List.mem_cons_self, ih fun v hv => h v (List.mem_cons_of_mem _ hv), zero_add]

/-- Each of the `n` operators that `S+` can act on lets the lowering index of the bra exceed that of the ket by one. -/
theorem van_up {N S' S : ℕ} {φ ψ : ℕ → Vec ℝ} (hφ : Fam N S' φ) (hψ : Fam N S ψ) : ∀ (n : ℕ) (l r : Word), Ok N l → Ok N r →
    nB l + nA r ≤ n → ∀ i j, j + n + 1 ≤ i → i ≤ S' → amp N φ ψ l r i j = 0
  | 0, l, r, hl, hr, hn => fun i j hi hS => by
    refine (amp_up hφ hψ hl hr).van (d := 0) (fun i j _ _ => ?_) j i hi hS
    rw [sum_zero fun w hw => ?_, sum_zero fun w hw => ?_, sub_zero]
    · have := dU_count r w hw; omega
    · have := dL_count l w hw; omega
  | n + 1, l, r, hl, hr, hn => fun i j hi hS => by
    refine (amp_up hφ hψ hl hr).van (d := n + 1) (fun i j hij hi => ?_) j i hi hS
    rw [sum_zero fun w hw => ?_, sum_zero fun w hw => ?_, sub_zero]
    · have := dU_count r w hw
      exact van_up hφ hψ n l w hl (dU_ok r hr w hw) (by omega) i j (by omega) hi
    · have := dL_count l w hw
      exact van_up hφ hψ n w r (dL_ok l hl w hw) hr (by omega) i j (by omega) hi

theorem van_dn {N S' S : ℕ} {φ ψ : ℕ → Vec ℝ} (hφ : Fam N S' φ) (hψ : Fam N S ψ) (n : ℕ) (l r : Word) (hl : Ok N l) (hr : Ok N r)
    (hn : nA l + nB r ≤ n) (i j : ℕ) (hij : i + n + 1 ≤ j) (hj : j ≤ S) : amp N φ ψ l r i j = 0 := by
  rw [amp_comm]
  exact van_up hψ hφ n r l hr hl (by omega) j i hij hj

theorem ok1 {N : ℕ} {x : Bool × ℕ} (h : x.2 < N) : Ok N [x] := by
  intro y hy; rw [List.mem_singleton.1 hy]; exact h

theorem ok0 {N : ℕ} : Ok N [] := by intro y hy; simp at hy

theorem ok2 {N : ℕ} {x y : Bool × ℕ} (h : x.2 < N) (h' : y.2 < N) : Ok N [x, y] := by
  intro z hz
  rcases List.mem_cons.1 hz with rfl | hz
  · exact h
  · exact ok1 h' z hz

end Verif.SpinAmp
