import Verif.Lemmas.Ladder
import Verif.Lemmas.WignerCases
/-!
# Lemmas: matrix elements of products of annihilation and creation operators between two spin multiplets
-/
namespace Verif.SpinAmp
open Verif.Spec.Tdm Verif.Tdm Verif.Ladder Verif.Wigner

/-- A product of annihilation operators; the leftmost acts last. -/
abbrev Word := List (Bool × ℕ)

def anns (N : ℕ) : Word → Vec ℝ → Vec ℝ
  | [], ψ => ψ
  | x :: w, ψ => ann N x.1 x.2 (anns N w ψ)

/-- The words with one spin-down operator replaced by the spin-up one. -/
def dL : Word → List Word
  | [] => []
  | x :: w => (if x.1 then [(false, x.2) :: w] else []) ++ (dL w).map (x :: ·)

def dU : Word → List Word
  | [] => []
  | x :: w => (if x.1 then [] else [(true, x.2) :: w]) ++ (dU w).map (x :: ·)

def Ok (N : ℕ) (w : Word) : Prop := ∀ x ∈ w, x.2 < N

noncomputable def tot (N : ℕ) (W : List Word) (ψ : Vec ℝ) : Vec ℝ := fun A B => (W.map fun w => anns N w ψ A B).sum

theorem ann_tot (N : ℕ) (x : Bool × ℕ) (W : List Word) (ψ : Vec ℝ) :
    ann N x.1 x.2 (tot N W ψ) = tot N (W.map (x :: ·)) ψ := by
  induction W with
  | nil => unfold tot; simp only [List.map_nil, List.sum_nil]; exact ann_zero N _ _
  | cons w W ih =>
    funext A B
    have : tot N (w :: W) ψ = fun A B => anns N w ψ A B + tot N W ψ A B := by
      funext A B; simp [tot]
    rw [this, ann_add, ih]
    simp [tot, anns]

theorem anns_low {N : ℕ} {w : Word} (hw : Ok N w) (ψ : Vec ℝ) :
    anns N w (lowT N ψ) = fun A B => lowT N (anns N w ψ) A B + tot N (dL w) ψ A B := by
  induction w with
  | nil => funext A B; simp [anns, tot, dL]
  | cons x w ih =>
    funext A B
    rw [show anns N (x :: w) (lowT N ψ) = ann N x.1 x.2 (anns N w (lowT N ψ)) from rfl,
      ih (fun y hy => hw y (List.mem_cons_of_mem _ hy)), ann_add, ann_low N x.1 x.2 (hw x List.mem_cons_self), ann_tot]
    have : tot N (dL (x :: w)) ψ A B = (if x.1 then ann N false x.2 (anns N w ψ) A B else 0) + tot N ((dL w).map (x :: ·)) ψ A B := by
      unfold tot
      rw [dL, List.map_append, List.sum_append]
      cases x.1 <;> simp [anns]
    rw [this]
    simp only [anns]
    ring

theorem anns_rai {N : ℕ} {w : Word} (hw : Ok N w) (ψ : Vec ℝ) :
    anns N w (raiT N ψ) = fun A B => raiT N (anns N w ψ) A B + tot N (dU w) ψ A B := by
  induction w with
  | nil => funext A B; simp [anns, tot, dU]
  | cons x w ih =>
    funext A B
    rw [show anns N (x :: w) (raiT N ψ) = ann N x.1 x.2 (anns N w (raiT N ψ)) from rfl,
      ih (fun y hy => hw y (List.mem_cons_of_mem _ hy)), ann_add, ann_rai N x.1 x.2 (hw x List.mem_cons_self), ann_tot]
    have : tot N (dU (x :: w)) ψ A B = (if x.1 then 0 else ann N true x.2 (anns N w ψ) A B) + tot N ((dU w).map (x :: ·)) ψ A B := by
      unfold tot
      rw [dU, List.map_append, List.sum_append]
      cases x.1 <;> simp [anns]
    rw [this]
    simp only [anns]
    ring

/-- The states of a multiplet of spin `S/2`: `j` counts the lowerings from the highest projection. -/
structure Fam (N S : ℕ) (ψ : ℕ → Vec ℝ) : Prop where
  low : ∀ j, lowT N (ψ j) = fun A B => c S j * ψ (j + 1) A B
  rai0 : raiT N (ψ 0) = fun _ _ => 0
  rai : ∀ j, raiT N (ψ (j + 1)) = fun A B => c S j * ψ j A B

noncomputable def amp (N : ℕ) (φ ψ : ℕ → Vec ℝ) (l r : Word) : ℕ → ℕ → ℝ := fun i j => ovl N (anns N l (φ i)) (anns N r (ψ j))

theorem anns_smul (N : ℕ) (w : Word) (x : ℝ) (ψ : Vec ℝ) : anns N w (fun A B => x * ψ A B) = fun A B => x * anns N w ψ A B := by
  induction w with
  | nil => rfl
  | cons y w ih => simp only [anns, ih, ann_smul]

theorem anns_zero (N : ℕ) (w : Word) : anns N w (fun _ _ => 0) = fun _ _ => 0 := by
  induction w with
  | nil => rfl
  | cons y w ih => simp only [anns, ih, ann_zero]

theorem ovl_smul_right (N : ℕ) (x : ℝ) (φ ψ : Vec ℝ) : ovl N φ (fun A B => x * ψ A B) = x * ovl N φ ψ := by
  simpa using ovl_smul N 1 x φ ψ

theorem ovl_smul_left (N : ℕ) (x : ℝ) (φ ψ : Vec ℝ) : ovl N (fun A B => x * φ A B) ψ = x * ovl N φ ψ := by
  simpa using ovl_smul N x 1 φ ψ

theorem ovl_add_right (N : ℕ) (φ ψ χ : Vec ℝ) : ovl N φ (fun A B => ψ A B + χ A B) = ovl N φ ψ + ovl N φ χ := by
  unfold ovl
  simp only [mul_add, Finset.sum_add_distrib]

theorem ovl_tot (N : ℕ) (W : List Word) (φ ψ : Vec ℝ) : ovl N φ (tot N W ψ) = (W.map fun w => ovl N φ (anns N w ψ)).sum := by
  induction W with
  | nil => simp [tot, ovl]
  | cons w W ih =>
    rw [show tot N (w :: W) ψ = fun A B => anns N w ψ A B + tot N W ψ A B by funext A B; simp [tot], ovl_add_right, ih]
    simp

theorem ovl_zero_left (N : ℕ) (ψ : Vec ℝ) : ovl N (fun _ _ => 0) ψ = 0 := by simp [ovl]

theorem core_dn {N : ℕ} {l r : Word} (hl : Ok N l) (hr : Ok N r) (φ ψ : Vec ℝ) :
    ovl N (anns N l (raiT N φ)) (anns N r ψ) - ovl N (anns N l φ) (anns N r (lowT N ψ)) =
      ((dU l).map fun w => ovl N (anns N w φ) (anns N r ψ)).sum - ((dL r).map fun w => ovl N (anns N l φ) (anns N w ψ)).sum := by
  rw [anns_low hr, anns_rai hl, ovl_add_right, ovl_tot, ovl_comm N _ (anns N r ψ), ovl_add_right, ovl_tot,
    ← ovl_low N (anns N r ψ) (anns N l φ), ovl_comm N (lowT N _)]
  rw [show ((dU l).map fun w => ovl N (anns N r ψ) (anns N w φ)) = (dU l).map fun w => ovl N (anns N w φ) (anns N r ψ) from
    List.map_congr_left fun w _ => ovl_comm N _ _]
  ring

theorem amp_comm (N : ℕ) (φ ψ : ℕ → Vec ℝ) (l r : Word) (i j : ℕ) : amp N φ ψ l r i j = amp N ψ φ r l j i := ovl_comm N _ _

theorem amp_dn {N S' S : ℕ} {φ ψ : ℕ → Vec ℝ} (hφ : Fam N S' φ) (hψ : Fam N S ψ) {l r : Word} (hl : Ok N l) (hr : Ok N r) :
    Dn S' S (amp N φ ψ l r) fun i j =>
      ((dU l).map fun w => amp N φ ψ w r i j).sum - ((dL r).map fun w => amp N φ ψ l w i j).sum := by
  constructor
  · intro j
    have := core_dn hl hr (φ 0) (ψ j)
    rw [hφ.rai0, hψ.low, anns_zero, anns_smul, ovl_zero_left, ovl_smul_right] at this
    unfold amp
    linarith
  · intro i j
    have := core_dn hl hr (φ (i + 1)) (ψ j)
    rw [hφ.rai, hψ.low, anns_smul, anns_smul, ovl_smul_left, ovl_smul_right] at this
    exact this

theorem amp_up {N S' S : ℕ} {φ ψ : ℕ → Vec ℝ} (hφ : Fam N S' φ) (hψ : Fam N S ψ) {l r : Word} (hl : Ok N l) (hr : Ok N r) :
    Up S' S (amp N φ ψ l r) fun i j =>
      ((dL l).map fun w => amp N φ ψ w r i j).sum - ((dU r).map fun w => amp N φ ψ l w i j).sum := by
  have := (amp_dn hψ hφ hr hl).swap
  have e : ∀ l' r', (fun i j => amp N ψ φ r' l' j i) = amp N φ ψ l' r' := by
    intro l' r'; funext i j; exact amp_comm N ψ φ r' l' j i
  rw [e] at this
  refine cast (congrArg _ ?_) this
  funext i j
  rw [show ((dU r).map fun w => amp N ψ φ w l j i) = (dU r).map fun w => amp N φ ψ l w i j from
    List.map_congr_left fun w _ => amp_comm N ψ φ w l j i,
    show ((dL l).map fun w => amp N ψ φ r w j i) = (dL l).map fun w => amp N φ ψ w r i j from
    List.map_congr_left fun w _ => amp_comm N ψ φ r w j i]
  ring

theorem amp_exch {N : ℕ} (φ ψ : ℕ → Vec ℝ) (l : Word) (x y : Bool × ℕ) (r : Word) (hx : x.2 < N) (hy : y.2 < N) (i j : ℕ) :
    amp N φ ψ l (x :: y :: r) i j = -amp N φ ψ l (y :: x :: r) i j := by
  unfold amp
  simp only [anns]
  rw [ann_comm N y.1 x.1 y.2 x.2 hy hx, ovl_neg_right]

theorem amp_exch_left {N : ℕ} (φ ψ : ℕ → Vec ℝ) (r : Word) (x y : Bool × ℕ) (l : Word) (hx : x.2 < N) (hy : y.2 < N) (i j : ℕ) :
    amp N φ ψ (x :: y :: l) r i j = -amp N φ ψ (y :: x :: l) r i j := by
  rw [amp_comm, amp_exch ψ φ r x y l hx hy, ← amp_comm]

end Verif.SpinAmp
