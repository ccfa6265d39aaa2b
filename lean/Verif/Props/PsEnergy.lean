import Verif.Model.PsEnergy
import Verif.Spec.PsEnergy
import Verif.Props.SymBlocks
import Mathlib.Algebra.BigOperators.Ring.Finset
import Mathlib.Tactic.LinearCombination
import Mathlib.Tactic.Ring
import Mathlib.Algebra.BigOperators.Intervals
import Mathlib.Algebra.Field.Rat
import Mathlib.Data.Fintype.BigOperators
/-!
# C54: the fragment effective Hamiltonian reproduces the total energy
-/
namespace Verif.Props
open Verif.PsEnergy Verif.Spec.PsEnergy

namespace PsEnergy
open Verif.Spec.SymBlocks (spaceOf)
variable {K : Type} [Field K]

theorem ins_iff (norb : List Nat) (p : Nat) (hp : p < norb.sum) (f : Nat) : ins norb f p = true ↔ spaceOf norb p = f := by
  rw [← SymBlocks.spaceOf_iff norb p hp f]
  unfold ins
  simp only [Bool.and_eq_true, decide_eq_true_eq]
  rfl

theorem spaceOf_lt (norb : List Nat) (p : Nat) (hp : p < norb.sum) : spaceOf norb p < norb.length := by
  have h1 := (SymBlocks.spaceOf_iff norb p hp _).2 rfl
  by_contra h2
  rw [List.getD_eq_default _ _ (by omega)] at h1
  omega

theorem ins_eq (norb : List Nat) (p : Nat) (hp : p < norb.sum) (f : Nat) : ins norb f p = decide (spaceOf norb p = f) := by
  rw [Bool.eq_iff_iff, ins_iff norb p hp f, decide_eq_true_eq]

/-- Closed form of the one-body density matrix. -/
theorem makeRdm1s_eq (norb : List Nat) (fr : Nat → FragDm K) (σ : Bool) (p q : Nat) (hp : p < norb.sum) (hq : q < norb.sum) :
    makeRdm1s norb fr σ p q = if spaceOf norb p = spaceOf norb q then
      (fr (spaceOf norb p)).d σ (p - lo norb (spaceOf norb p)) (q - lo norb (spaceOf norb p)) else 0 := by
  unfold makeRdm1s
  have key : ∀ (l : List Nat) (dm : Mat K),
      (l.foldl (fun (dm : Mat K) f => fun p q =>
        if ins norb f p && ins norb f q then (fr f).d σ (p - lo norb f) (q - lo norb f) else dm p q) dm) p q =
      if spaceOf norb p = spaceOf norb q ∧ spaceOf norb p ∈ l then
        (fr (spaceOf norb p)).d σ (p - lo norb (spaceOf norb p)) (q - lo norb (spaceOf norb p)) else dm p q := by
    intro l
    induction l with
    | nil => intro dm; simp
    | cons f l ih =>
      intro dm
      rw [List.foldl_cons, ih]
      simp only [ins_eq norb p hp, ins_eq norb q hq, List.mem_cons]
      by_cases h1 : spaceOf norb p = spaceOf norb q
      · by_cases h2 : spaceOf norb p = f
        · rw [← h1]
          by_cases h3 : spaceOf norb p ∈ l
          · simp [h3]
          · simp [h2]
        · by_cases h3 : spaceOf norb p ∈ l <;> simp [h2, h3]
      · have : ¬ (spaceOf norb p = f ∧ spaceOf norb q = f) := fun h => h1 (h.1.trans h.2.symm)
        by_cases h2 : spaceOf norb p = f <;> by_cases h3 : spaceOf norb q = f <;> simp_all
  rw [key]
  simp [spaceOf_lt norb p hp]

/-- Closed form of the two-body density matrix. -/
theorem makeRdm2_eq (norb : List Nat) (fr : Nat → FragDm K) (p q r s : Nat) (hp : p < norb.sum) (hq : q < norb.sum)
    (hr : r < norb.sum) (hs : s < norb.sum) :
    makeRdm2 norb fr p q r s =
      if spaceOf norb p = spaceOf norb q ∧ spaceOf norb q = spaceOf norb r ∧ spaceOf norb r = spaceOf norb s then
        (fr (spaceOf norb p)).D (p - lo norb (spaceOf norb p)) (q - lo norb (spaceOf norb p))
          (r - lo norb (spaceOf norb p)) (s - lo norb (spaceOf norb p))
      else if spaceOf norb p = spaceOf norb q ∧ spaceOf norb r = spaceOf norb s then
        (makeRdm1s norb fr false p q + makeRdm1s norb fr true p q) * (makeRdm1s norb fr false r s + makeRdm1s norb fr true r s)
      else if spaceOf norb p = spaceOf norb s ∧ spaceOf norb q = spaceOf norb r then
        -(makeRdm1s norb fr false p s * makeRdm1s norb fr false q r + makeRdm1s norb fr true p s * makeRdm1s norb fr true q r)
      else 0 := by
  have hd : ∀ (l : List Nat) (dm : Ten K), (l.foldl (setDiag norb fr) dm) p q r s =
      if (spaceOf norb p = spaceOf norb q ∧ spaceOf norb q = spaceOf norb r ∧ spaceOf norb r = spaceOf norb s) ∧
          spaceOf norb p ∈ l then
        (fr (spaceOf norb p)).D (p - lo norb (spaceOf norb p)) (q - lo norb (spaceOf norb p))
          (r - lo norb (spaceOf norb p)) (s - lo norb (spaceOf norb p)) else dm p q r s := by
    intro l
    induction l with
    | nil => intro dm; simp
    | cons f l ih =>
      intro dm
      rw [List.foldl_cons, ih]
      simp only [setDiag, ins_eq norb p hp, ins_eq norb q hq, ins_eq norb r hr, ins_eq norb s hs, List.mem_cons]
      by_cases h1 : spaceOf norb p = spaceOf norb q ∧ spaceOf norb q = spaceOf norb r ∧ spaceOf norb r = spaceOf norb s
      · obtain ⟨a, b, c⟩ := h1
        rw [← c, ← b, ← a]
        by_cases h2 : spaceOf norb p = f
        · by_cases h3 : spaceOf norb p ∈ l
          · simp [h3]
          · simp [h2]
        · by_cases h3 : spaceOf norb p ∈ l <;> simp [h2, h3]
      · rw [if_neg (fun h => h1 h.1), if_neg, if_neg (fun h => h1 h.1)]
        simp only [Bool.and_eq_true, decide_eq_true_eq]
        rintro ⟨⟨⟨a, b⟩, c⟩, d⟩
        exact h1 ⟨a.trans b.symm, b.trans c.symm, c.trans d.symm⟩
  have hmem : ∀ f g, (f, g) ∈ combinations2 norb.length ↔ f < g ∧ g < norb.length := by
    intro f g
    simp only [combinations2, List.mem_flatMap, List.mem_map, List.mem_filter, List.mem_range, decide_eq_true_eq,
      Prod.mk.injEq]
    constructor
    · rintro ⟨a, _, b, ⟨h1, h2⟩, rfl, rfl⟩; exact ⟨h2, h1⟩
    · rintro ⟨h1, h2⟩; exact ⟨f, by omega, g, ⟨h2, h1⟩, rfl, rfl⟩
  have hp2 : ∀ (l : List (Nat × Nat)) (dm : Ten K), (∀ fg ∈ l, fg.1 < fg.2) →
      (l.foldl (setPair norb (makeRdm1s norb fr)) dm) p q r s =
      if (spaceOf norb p = spaceOf norb q ∧ spaceOf norb r = spaceOf norb s) ∧
          ((spaceOf norb p, spaceOf norb r) ∈ l ∨ (spaceOf norb r, spaceOf norb p) ∈ l) then
        (makeRdm1s norb fr false p q + makeRdm1s norb fr true p q) * (makeRdm1s norb fr false r s + makeRdm1s norb fr true r s)
      else if (spaceOf norb p = spaceOf norb s ∧ spaceOf norb q = spaceOf norb r) ∧
          ((spaceOf norb p, spaceOf norb q) ∈ l ∨ (spaceOf norb q, spaceOf norb p) ∈ l) then
        -(makeRdm1s norb fr false p s * makeRdm1s norb fr false q r + makeRdm1s norb fr true p s * makeRdm1s norb fr true q r)
      else dm p q r s := by
    intro l
    induction l with
    | nil => intro dm _; simp
    | cons fg l ih =>
      intro dm hl
      obtain ⟨f, g⟩ := fg
      have hfg : f < g := hl (f, g) (by simp)
      rw [List.foldl_cons, ih _ (fun x hx => hl x (by simp [hx]))]
      simp only [setPair, ins_eq norb p hp, ins_eq norb q hq, ins_eq norb r hr, ins_eq norb s hs, List.mem_cons, Prod.mk.injEq,
        Bool.and_eq_true, decide_eq_true_eq]
      generalize spaceOf norb p = P
      generalize spaceOf norb q = Q
      generalize spaceOf norb r = R
      generalize spaceOf norb s = S
      have hirr : ∀ x, (x, x) ∉ l := fun x hx => absurd (hl (x, x) (by simp [hx])) (by simp)
      by_cases h1 : P = Q ∧ R = S
      · obtain ⟨rfl, rfl⟩ := h1
        by_cases h2 : P = R
        · subst h2
          have e1 : ¬ (P = g ∧ P = f) := by omega
          have e2 : ¬ (P = f ∧ P = g) := by omega
          have e3 : ¬ (((P = g ∧ P = f) ∧ P = f) ∧ P = g) := by omega
          have e4 : ¬ (((P = f ∧ P = g) ∧ P = g) ∧ P = f) := by omega
          have e5 : ¬ (((P = g ∧ P = g) ∧ P = f) ∧ P = f) := by omega
          have e6 : ¬ (((P = f ∧ P = f) ∧ P = g) ∧ P = g) := by omega
          rw [if_neg (by simp [hirr]), if_neg (by simp [hirr]), if_neg e3, if_neg e4, if_neg e5, if_neg e6,
            if_neg (by simp [hirr, e2]), if_neg (by simp [hirr, e2])]
        · have n1 : ¬ ((P = R ∧ P = R) ∧ ((P, P) ∈ l ∨ (P, P) ∈ l)) := fun h => h2 h.1.1
          rw [if_neg n1, if_neg (fun h : ((P = g ∧ P = f) ∧ R = f) ∧ R = g => by omega),
            if_neg (fun h : ((P = f ∧ P = g) ∧ R = g) ∧ R = f => by omega),
            if_neg (c := (P = R ∧ P = R) ∧ ((P = f ∧ P = g ∨ (P, P) ∈ l) ∨ P = f ∧ P = g ∨ (P, P) ∈ l))
              (fun h => h2 h.1.1)]
          by_cases c3 : P = g ∧ R = f
          · rw [if_pos (c := ((P = g ∧ P = g) ∧ R = f) ∧ R = f) ⟨⟨⟨c3.1, c3.1⟩, c3.2⟩, c3.2⟩,
              if_pos (c := (P = P ∧ R = R) ∧ ((P = f ∧ R = g ∨ (P, R) ∈ l) ∨ R = f ∧ P = g ∨ (R, P) ∈ l))
                ⟨⟨rfl, rfl⟩, Or.inr (Or.inl ⟨c3.2, c3.1⟩)⟩]
            split
            · rfl
            · exact mul_comm _ _
          · rw [if_neg (c := ((P = g ∧ P = g) ∧ R = f) ∧ R = f) (fun h => c3 ⟨h.1.1.1, h.2⟩)]
            by_cases c4 : P = f ∧ R = g
            · rw [if_pos (c := ((P = f ∧ P = f) ∧ R = g) ∧ R = g) ⟨⟨⟨c4.1, c4.1⟩, c4.2⟩, c4.2⟩,
                if_pos (c := (P = P ∧ R = R) ∧ ((P = f ∧ R = g ∨ (P, R) ∈ l) ∨ R = f ∧ P = g ∨ (R, P) ∈ l))
                  ⟨⟨rfl, rfl⟩, Or.inl (Or.inl c4)⟩]
              split <;> rfl
            · rw [if_neg (c := ((P = f ∧ P = f) ∧ R = g) ∧ R = g) (fun h => c4 ⟨h.1.1.1, h.2⟩)]
              have c3' : ¬ (R = f ∧ P = g) := fun h => c3 ⟨h.2, h.1⟩
              simp only [c4, c3', false_or]
      · rw [if_neg (c := (P = Q ∧ R = S) ∧ ((P, R) ∈ l ∨ (R, P) ∈ l)) (fun h => h1 h.1),
          if_neg (c := (P = Q ∧ R = S) ∧ ((P = f ∧ R = g ∨ (P, R) ∈ l) ∨ R = f ∧ P = g ∨ (R, P) ∈ l)) (fun h => h1 h.1),
          if_neg (c := ((P = g ∧ Q = g) ∧ R = f) ∧ S = f) (fun h => h1 (by omega)),
          if_neg (c := ((P = f ∧ Q = f) ∧ R = g) ∧ S = g) (fun h => h1 (by omega))]
        by_cases h2 : P = S ∧ Q = R
        · obtain ⟨rfl, rfl⟩ := h2
          by_cases c1 : P = g ∧ Q = f
          · rw [if_pos (c := ((P = g ∧ Q = f) ∧ Q = f) ∧ P = g) ⟨⟨c1, c1.2⟩, c1.1⟩,
              if_pos (c := (P = P ∧ Q = Q) ∧ ((P = f ∧ Q = g ∨ (P, Q) ∈ l) ∨ Q = f ∧ P = g ∨ (Q, P) ∈ l))
                ⟨⟨rfl, rfl⟩, Or.inr (Or.inl ⟨c1.2, c1.1⟩)⟩]
            split
            · rfl
            · ring
          · rw [if_neg (c := ((P = g ∧ Q = f) ∧ Q = f) ∧ P = g) (fun h => c1 h.1.1)]
            by_cases c2 : P = f ∧ Q = g
            · rw [if_pos (c := ((P = f ∧ Q = g) ∧ Q = g) ∧ P = f) ⟨⟨c2, c2.2⟩, c2.1⟩,
                if_pos (c := (P = P ∧ Q = Q) ∧ ((P = f ∧ Q = g ∨ (P, Q) ∈ l) ∨ Q = f ∧ P = g ∨ (Q, P) ∈ l))
                  ⟨⟨rfl, rfl⟩, Or.inl (Or.inl c2)⟩]
              split <;> rfl
            · rw [if_neg (c := ((P = f ∧ Q = g) ∧ Q = g) ∧ P = f) (fun h => c2 h.1.1)]
              have c1' : ¬ (Q = f ∧ P = g) := fun h => c1 ⟨h.2, h.1⟩
              simp only [c2, c1', false_or]
        · rw [if_neg (c := (P = S ∧ Q = R) ∧ ((P, Q) ∈ l ∨ (Q, P) ∈ l)) (fun h => h2 h.1),
            if_neg (c := (P = S ∧ Q = R) ∧ ((P = f ∧ Q = g ∨ (P, Q) ∈ l) ∨ Q = f ∧ P = g ∨ (Q, P) ∈ l)) (fun h => h2 h.1),
            if_neg (c := ((P = g ∧ Q = f) ∧ R = f) ∧ S = g) (fun h => h2 (by omega)),
            if_neg (c := ((P = f ∧ Q = g) ∧ R = g) ∧ S = f) (fun h => h2 (by omega))]
  unfold makeRdm2
  rw [hp2 _ _ (fun fg h => ((hmem fg.1 fg.2).1 h).1), hd]
  simp only [hmem, List.mem_range]
  have lp := spaceOf_lt norb p hp
  have lq := spaceOf_lt norb q hq
  have lr := spaceOf_lt norb r hr
  have ls := spaceOf_lt norb s hs
  generalize spaceOf norb p = P at *
  generalize spaceOf norb q = Q at *
  generalize spaceOf norb r = R at *
  generalize spaceOf norb s = S at *
  by_cases h1 : P = Q ∧ R = S
  · obtain ⟨rfl, rfl⟩ := h1
    by_cases h2 : P = R
    · subst h2
      simp [lp]
    · have : P < R ∨ R < P := by omega
      simp [h2, this, lp, lr]
  · by_cases h2 : P = S ∧ Q = R
    · obtain ⟨rfl, rfl⟩ := h2
      have h3 : P ≠ Q := fun h => h1 ⟨h, h.symm⟩
      have : P < Q ∨ Q < P := by omega
      simp [h3, this, lp, lq]
    · have h4 : ¬ (P = Q ∧ Q = R ∧ R = S) := fun h => h1 ⟨h.1, h.2.2⟩
      simp only [h1, h2, h4, false_and, if_false]

/-! ### Sums -/

theorem sum4_pairs (T : Finset Nat) (F : Ten K) : (∑ p ∈ T, ∑ q ∈ T, ∑ r ∈ T, ∑ s ∈ T, F p q r s) =
    ∑ p ∈ T, ∑ q ∈ T, ∑ r ∈ T, ∑ s ∈ T, F r s p q := by
  have h1 : ∀ G : Ten K, (∑ p ∈ T, ∑ q ∈ T, ∑ r ∈ T, ∑ s ∈ T, G p q r s) = ∑ x ∈ T ×ˢ T, ∑ y ∈ T ×ˢ T, G x.1 x.2 y.1 y.2 := by
    intro G
    rw [Finset.sum_product]
    refine Finset.sum_congr rfl (fun p _ => Finset.sum_congr rfl (fun q _ => ?_))
    rw [Finset.sum_product]
  rw [h1, h1, Finset.sum_comm]

theorem sum4_swap (T : Finset Nat) (F : Ten K) : (∑ p ∈ T, ∑ q ∈ T, ∑ r ∈ T, ∑ s ∈ T, F p q r s) =
    ∑ p ∈ T, ∑ q ∈ T, ∑ r ∈ T, ∑ s ∈ T, F q p s r := by
  rw [Finset.sum_comm]
  refine Finset.sum_congr rfl (fun p _ => Finset.sum_congr rfl (fun q _ => ?_))
  rw [Finset.sum_comm]

/-- Sum over all indices with one density in each pair of positions: `(p, s)` and `(q, r)`. -/
theorem sum4_exch (T : Finset Nat) (F : Ten K) : (∑ p ∈ T, ∑ q ∈ T, ∑ r ∈ T, ∑ s ∈ T, F p q r s) =
    ∑ p ∈ T, ∑ s ∈ T, ∑ r ∈ T, ∑ q ∈ T, F p q r s := by
  refine Finset.sum_congr rfl (fun p _ => ?_)
  have h : ∀ q, (∑ r ∈ T, ∑ s ∈ T, F p q r s) = ∑ s ∈ T, ∑ r ∈ T, F p q r s := fun q => Finset.sum_comm
  simp only [h]
  rw [Finset.sum_comm]
  exact Finset.sum_congr rfl (fun s _ => Finset.sum_comm)

/-- The two-body density of two independent parts. -/
def cross (A X : Bool → Mat K) : Ten K := fun p q r s =>
  ((A false p q + A true p q) * (X false r s + X true r s) + (X false p q + X true p q) * (A false r s + A true r s))
    - ((A false p s * X false q r + A true p s * X true q r) + (X false p s * A false q r + X true p s * A true q r))

def coul (T : Finset Nat) (h2 : Ten K) (A X : Mat K) : K := ∑ p ∈ T, ∑ q ∈ T, ∑ r ∈ T, ∑ s ∈ T, h2 p q r s * (A p q * X r s)
def exch (T : Finset Nat) (h2 : Ten K) (A X : Mat K) : K := ∑ p ∈ T, ∑ q ∈ T, ∑ r ∈ T, ∑ s ∈ T, h2 p q r s * (A q r * X p s)

theorem coul_comm (T : Finset Nat) (h2 : Ten K) (hs : Sym h2) (A X : Mat K) : coul T h2 A X = coul T h2 X A := by
  unfold coul
  rw [sum4_pairs]
  refine Finset.sum_congr rfl (fun p _ => Finset.sum_congr rfl (fun q _ => Finset.sum_congr rfl (fun r _ =>
    Finset.sum_congr rfl (fun s _ => ?_))))
  rw [hs.pairs r s p q]; ring

theorem exch_comm (T : Finset Nat) (h2 : Ten K) (hs : Sym h2) (A X : Mat K) : exch T h2 A X = exch T h2 X A := by
  unfold exch
  rw [sum4_swap]
  refine Finset.sum_congr rfl (fun p _ => Finset.sum_congr rfl (fun q _ => Finset.sum_congr rfl (fun r _ =>
    Finset.sum_congr rfl (fun s _ => ?_))))
  rw [hs.flip q p s r]; ring

theorem dot2_cross (T : Finset Nat) (h2 : Ten K) (A X : Bool → Mat K) :
    dot2 T h2 (cross A X) =
      (coul T h2 (fun p q => A false p q + A true p q) (fun p q => X false p q + X true p q) +
        coul T h2 (fun p q => X false p q + X true p q) (fun p q => A false p q + A true p q)) -
      ((exch T h2 (X false) (A false) + exch T h2 (X true) (A true)) +
        (exch T h2 (A false) (X false) + exch T h2 (A true) (X true))) := by
  unfold dot2 cross coul exch
  simp only [← Finset.sum_add_distrib, ← Finset.sum_sub_distrib]
  refine Finset.sum_congr rfl (fun p _ => Finset.sum_congr rfl (fun q _ => Finset.sum_congr rfl (fun r _ =>
    Finset.sum_congr rfl (fun s _ => ?_))))
  ring

theorem coul_add (T : Finset Nat) (h2 : Ten K) (A B X : Mat K) :
    coul T h2 (fun p q => A p q + B p q) X = coul T h2 A X + coul T h2 B X := by
  unfold coul
  simp only [← Finset.sum_add_distrib]
  refine Finset.sum_congr rfl (fun p _ => Finset.sum_congr rfl (fun q _ => Finset.sum_congr rfl (fun r _ =>
    Finset.sum_congr rfl (fun s _ => ?_))))
  ring

theorem coul_add' (T : Finset Nat) (h2 : Ten K) (A X Y : Mat K) :
    coul T h2 A (fun p q => X p q + Y p q) = coul T h2 A X + coul T h2 A Y := by
  unfold coul
  simp only [← Finset.sum_add_distrib]
  refine Finset.sum_congr rfl (fun p _ => Finset.sum_congr rfl (fun q _ => Finset.sum_congr rfl (fun r _ =>
    Finset.sum_congr rfl (fun s _ => ?_))))
  ring

/-- Contraction of the potential of `A` with `X`. -/
theorem vpot_dot (T : Finset Nat) (h2 : Ten K) (A X : Bool → Mat K) (hA : ∀ σ, ∀ p ∈ T, ∀ q ∈ T, A σ p q = A σ q p) :
    dot1 T (vpot T h2 A) X =
      coul T h2 (fun p q => A false p q + A true p q) (fun p q => X false p q + X true p q) -
        (exch T h2 (A false) (X false) + exch T h2 (A true) (X true)) := by
  have hC : ∀ (B Y : Mat K), (∑ r ∈ T, ∑ s ∈ T, (∑ p ∈ T, ∑ q ∈ T, B p q * h2 p q r s) * Y r s) = coul T h2 B Y := by
    intro B Y
    unfold coul
    rw [sum4_pairs]
    refine Finset.sum_congr rfl (fun r _ => Finset.sum_congr rfl (fun s _ => ?_))
    rw [Finset.sum_mul]
    refine Finset.sum_congr rfl (fun p _ => ?_)
    rw [Finset.sum_mul]
    refine Finset.sum_congr rfl (fun q _ => ?_)
    ring
  have hX : ∀ (B Y : Mat K), (∀ p ∈ T, ∀ q ∈ T, B p q = B q p) →
      (∑ r ∈ T, ∑ s ∈ T, (∑ p ∈ T, ∑ q ∈ T, B p q * h2 r q p s) * Y r s) = exch T h2 B Y := by
    intro B Y hB
    unfold exch
    rw [sum4_exch]
    refine Finset.sum_congr rfl (fun r _ => Finset.sum_congr rfl (fun s _ => ?_))
    rw [Finset.sum_mul]
    refine Finset.sum_congr rfl (fun p hp => ?_)
    rw [Finset.sum_mul]
    refine Finset.sum_congr rfl (fun q hq => ?_)
    rw [hB p hp q hq]; ring
  unfold dot1 vpot
  rw [Fintype.sum_bool]
  simp only [sub_mul, add_mul, Finset.sum_add_distrib, Finset.sum_sub_distrib, Bool.not_true, Bool.not_false]
  simp only [hC, hX _ _ (hA false), hX _ _ (hA true)]
  rw [coul_add, coul_add', coul_add']
  ring

theorem half_cross (T : Finset Nat) (h2 : Ten K) (hs : Sym h2) (two : (2 : K) ≠ 0) (A X : Bool → Mat K)
    (hA : ∀ σ, ∀ p ∈ T, ∀ q ∈ T, A σ p q = A σ q p) : 2⁻¹ * dot2 T h2 (cross A X) = dot1 T (vpot T h2 A) X := by
  rw [vpot_dot T h2 A X hA, dot2_cross, coul_comm T h2 hs (fun p q => X false p q + X true p q),
    exch_comm T h2 hs (X false), exch_comm T h2 hs (X true)]
  have h : (2 : K)⁻¹ * 2 = 1 := inv_mul_cancel₀ two
  linear_combination (coul T h2 (fun p q => A false p q + A true p q) (fun p q => X false p q + X true p q) -
      (exch T h2 (A false) (X false) + exch T h2 (A true) (X true))) * h

theorem dot1_add (T : Finset Nat) (a b x : Bool → Mat K) :
    dot1 T (fun σ p q => a σ p q + b σ p q) x = dot1 T a x + dot1 T b x := by
  unfold dot1
  simp only [add_mul, Finset.sum_add_distrib]

theorem dot1_comm (T : Finset Nat) (a x : Bool → Mat K) : dot1 T a x = dot1 T x a := by
  unfold dot1
  simp only [mul_comm]

theorem dot1_sub (T : Finset Nat) (a b x : Bool → Mat K) :
    dot1 T (fun σ p q => a σ p q - b σ p q) x = dot1 T a x - dot1 T b x := by
  unfold dot1
  simp only [sub_mul, Finset.sum_sub_distrib]

theorem dot2_add (T : Finset Nat) (h a b : Ten K) :
    dot2 T h (fun p q r s => a p q r s + b p q r s) = dot2 T h a + dot2 T h b := by
  unfold dot2
  simp only [mul_add, Finset.sum_add_distrib]

theorem dot1_congr (T : Finset Nat) (a b x y : Bool → Mat K) (h : ∀ σ, ∀ p ∈ T, ∀ q ∈ T, a σ p q * x σ p q = b σ p q * y σ p q) :
    dot1 T a x = dot1 T b y :=
  Finset.sum_congr rfl (fun σ _ => Finset.sum_congr rfl (fun p hp => Finset.sum_congr rfl (fun q hq => h σ p hp q hq)))

theorem dot2_congr (T : Finset Nat) (h a b : Ten K) (hab : ∀ p ∈ T, ∀ q ∈ T, ∀ r ∈ T, ∀ s ∈ T, a p q r s = b p q r s) :
    dot2 T h a = dot2 T h b :=
  Finset.sum_congr rfl (fun p hp => Finset.sum_congr rfl (fun q hq => Finset.sum_congr rfl (fun r hr =>
    Finset.sum_congr rfl (fun s hs => by rw [hab p hp q hq r hr s hs]))))

/-- The slice of fragment `i` as a filter of all orbitals. -/
theorem slice_eq (norb : List Nat) (i : Nat) : Finset.Ico (lo norb i) (hi norb i) =
    (Finset.range norb.sum).filter (fun p => spaceOf norb p = i) := by
  have hle : ∀ (l : List Nat) (i : Nat), (l.take i).sum + l.getD i 0 ≤ l.sum := by
    intro l
    induction l with
    | nil => intro i; simp
    | cons a l ih =>
      intro i
      cases i with
      | zero => simp
      | succ i =>
        have := ih i
        simp only [List.take_succ_cons, List.sum_cons, List.getD_cons_succ]
        omega
  ext p
  rw [Finset.mem_Ico, Finset.mem_filter, Finset.mem_range]
  constructor
  · intro h
    have hp : p < norb.sum := lt_of_lt_of_le h.2 (hle norb i)
    exact ⟨hp, (SymBlocks.spaceOf_iff norb p hp i).1 h⟩
  · rintro ⟨hp, h⟩
    exact (SymBlocks.spaceOf_iff norb p hp i).2 h

/-- Restriction of a matrix to the slice of fragment `i`. -/
def onFrag (norb : List Nat) (i : Nat) (m : Bool → Mat K) : Bool → Mat K := fun σ p q =>
  if spaceOf norb p = i ∧ spaceOf norb q = i then m σ p q else 0

/-- The rest of the matrix. -/
def offFrag (norb : List Nat) (i : Nat) (m : Bool → Mat K) : Bool → Mat K := fun σ p q =>
  if spaceOf norb p = i ∧ spaceOf norb q = i then 0 else m σ p q

theorem sum_slice (norb : List Nat) (i : Nat) (F : Nat → Nat → K) :
    (∑ p ∈ Finset.Ico (lo norb i) (hi norb i), ∑ q ∈ Finset.Ico (lo norb i) (hi norb i), F p q) =
      ∑ p ∈ Finset.range norb.sum, ∑ q ∈ Finset.range norb.sum, if spaceOf norb p = i ∧ spaceOf norb q = i then F p q else 0 := by
  rw [slice_eq, Finset.sum_filter]
  refine Finset.sum_congr rfl (fun p _ => ?_)
  rw [Finset.sum_filter]
  by_cases h : spaceOf norb p = i
  · simp [h]
  · simp [h]

theorem dot1_slice (norb : List Nat) (i : Nat) (a x : Bool → Mat K) :
    dot1 (Finset.Ico (lo norb i) (hi norb i)) a x = dot1 (Finset.range norb.sum) a (onFrag norb i x) := by
  unfold dot1 onFrag
  refine Finset.sum_congr rfl (fun σ _ => ?_)
  rw [sum_slice]
  simp only [mul_ite, mul_zero]

theorem vpot_slice (norb : List Nat) (i : Nat) (h2 : Ten K) (m : Bool → Mat K) :
    vpot (Finset.Ico (lo norb i) (hi norb i)) h2 m = vpot (Finset.range norb.sum) h2 (onFrag norb i m) := by
  funext σ r s
  unfold vpot onFrag
  rw [sum_slice, sum_slice, sum_slice]
  simp only [ite_mul, zero_mul]

/-- Restriction of a two-body array to the slice of fragment `i`. -/
def onFrag2 (norb : List Nat) (i : Nat) (m : Ten K) : Ten K := fun p q r s =>
  if (spaceOf norb p = i ∧ spaceOf norb q = i) ∧ (spaceOf norb r = i ∧ spaceOf norb s = i) then m p q r s else 0

/-- Restriction of a two-body array to indices outside fragment `i`. -/
def offFrag2 (norb : List Nat) (i : Nat) (m : Ten K) : Ten K := fun p q r s =>
  if spaceOf norb p ≠ i ∧ spaceOf norb q ≠ i ∧ spaceOf norb r ≠ i ∧ spaceOf norb s ≠ i then m p q r s else 0

theorem dot2_slice (norb : List Nat) (i : Nat) (h x : Ten K) :
    dot2 (Finset.Ico (lo norb i) (hi norb i)) h x = dot2 (Finset.range norb.sum) h (onFrag2 norb i x) := by
  unfold dot2 onFrag2
  rw [sum_slice]
  refine Finset.sum_congr rfl (fun p _ => Finset.sum_congr rfl (fun q _ => ?_))
  by_cases hpq : spaceOf norb p = i ∧ spaceOf norb q = i
  · rw [if_pos hpq, sum_slice]
    simp [hpq]
  · rw [if_neg hpq]
    simp [hpq]

/-- The two-body density matrix: fragment `i`, the others, and products. -/
theorem rdm2_split (norb : List Nat) (fr : Nat → FragDm K) (i : Nat) (p q r s : Nat) (hp : p < norb.sum) (hq : q < norb.sum)
    (hr : r < norb.sum) (hs : s < norb.sum) :
    makeRdm2 norb fr p q r s = onFrag2 norb i (makeRdm2 norb fr) p q r s + offFrag2 norb i (makeRdm2 norb fr) p q r s +
      cross (offFrag norb i (makeRdm1s norb fr)) (onFrag norb i (makeRdm1s norb fr)) p q r s := by
  have z : ∀ σ x y, x < norb.sum → y < norb.sum → spaceOf norb x ≠ spaceOf norb y → makeRdm1s norb fr σ x y = 0 := by
    intro σ x y hx hy h
    rw [makeRdm1s_eq norb fr σ x y hx hy, if_neg h]
  have zpq := fun σ => z σ p q hp hq
  have zrs := fun σ => z σ r s hr hs
  have zps := fun σ => z σ p s hp hs
  have zqr := fun σ => z σ q r hq hr
  have e := makeRdm2_eq norb fr p q r s hp hq hr hs
  unfold onFrag2 offFrag2 cross onFrag offFrag
  generalize spaceOf norb p = P at *
  generalize spaceOf norb q = Q at *
  generalize spaceOf norb r = R at *
  generalize spaceOf norb s = S at *
  rw [e]
  generalize (fr P).D (p - lo norb P) (q - lo norb P) (r - lo norb P) (s - lo norb P) = D0
  clear e z
  by_cases a : P = i <;> by_cases b : Q = i <;> by_cases c : R = i <;> by_cases d : S = i <;>
    simp only [a, b, c, d, true_and, and_true, and_false, false_and, if_true, if_false, not_true_eq_false, not_false_eq_true, ne_eq, zero_mul,
      mul_zero, add_zero, zero_add, sub_zero] <;>
    by_cases x1 : P = Q <;> by_cases x2 : R = S <;> by_cases x3 : P = S <;> by_cases x4 : Q = R <;>
    first
    | (exfalso; omega)
    | (simp (disch := omega) only [zpq, zrs, zps, zqr]; ring1)
    | (split_ifs <;> first
        | (exfalso; omega)
        | (simp (disch := omega) only [zpq, zrs, zps, zqr]; ring1)
        | ring1)

theorem vpot_add (T : Finset Nat) (h2 : Ten K) (a b : Bool → Mat K) (σ : Bool) (p q : Nat) :
    vpot T h2 (fun σ p q => a σ p q + b σ p q) σ p q = vpot T h2 a σ p q + vpot T h2 b σ p q := by
  unfold vpot
  simp only [add_mul, Finset.sum_add_distrib]
  ring

theorem vpot_congr (T : Finset Nat) (h2 : Ten K) (a b : Bool → Mat K) (h : ∀ σ, ∀ p ∈ T, ∀ q ∈ T, a σ p q = b σ p q)
    (σ : Bool) (p q : Nat) : vpot T h2 a σ p q = vpot T h2 b σ p q := by
  unfold vpot
  refine congrArg₂ _ (congrArg₂ _ ?_ ?_) ?_ <;>
  exact Finset.sum_congr rfl (fun x hx => Finset.sum_congr rfl (fun y hy => by rw [h _ x hx y hy]))

theorem on_off (norb : List Nat) (i : Nat) (m : Bool → Mat K) (σ : Bool) (p q : Nat) :
    m σ p q = offFrag norb i m σ p q + onFrag norb i m σ p q := by
  unfold offFrag onFrag
  split <;> simp

theorem rdm1s_symm (norb : List Nat) (fr : Nat → FragDm K) (h : ∀ f, SymDensity (fr f).d) (σ : Bool) (p q : Nat)
    (hp : p < norb.sum) (hq : q < norb.sum) : makeRdm1s norb fr σ p q = makeRdm1s norb fr σ q p := by
  rw [makeRdm1s_eq norb fr σ p q hp hq, makeRdm1s_eq norb fr σ q p hq hp]
  by_cases hpq : spaceOf norb p = spaceOf norb q
  · rw [if_pos hpq, if_pos hpq.symm, hpq]
    exact h _ _ _ _
  · rw [if_neg hpq, if_neg (fun h => hpq h.symm)]

theorem off_symm (norb : List Nat) (fr : Nat → FragDm K) (h : ∀ f, SymDensity (fr f).d) (i : Nat) (σ : Bool) :
    ∀ p ∈ Finset.range norb.sum, ∀ q ∈ Finset.range norb.sum,
      offFrag norb i (makeRdm1s norb fr) σ p q = offFrag norb i (makeRdm1s norb fr) σ q p := by
  intro p hp q hq
  rw [Finset.mem_range] at hp hq
  unfold offFrag
  rw [rdm1s_symm norb fr h σ p q hp hq]
  by_cases h1 : spaceOf norb p = i <;> by_cases h2 : spaceOf norb q = i <;> simp [h1, h2]

theorem on_symm (norb : List Nat) (fr : Nat → FragDm K) (h : ∀ f, SymDensity (fr f).d) (i : Nat) (σ : Bool) :
    ∀ p ∈ Finset.range norb.sum, ∀ q ∈ Finset.range norb.sum,
      onFrag norb i (makeRdm1s norb fr) σ p q = onFrag norb i (makeRdm1s norb fr) σ q p := by
  intro p hp q hq
  rw [Finset.mem_range] at hp hq
  unfold onFrag
  rw [rdm1s_symm norb fr h σ p q hp hq]
  by_cases h1 : spaceOf norb p = i <;> by_cases h2 : spaceOf norb q = i <;> simp [h1, h2]

/-- Total energy: rest, fragment `i`, interaction. -/
theorem energy_split (norb : List Nat) (ecore : K) (h1 : Bool → Mat K) (h2 : Ten K) (two : (2 : K) ≠ 0) (hs : Sym h2)
    (fr : Nat → FragDm K) (hd : ∀ f, SymDensity (fr f).d) (i : Nat) :
    energyElec norb ecore h1 h2 fr =
      (ecore + dot1 (Finset.range norb.sum) h1 (offFrag norb i (makeRdm1s norb fr)) +
        2⁻¹ * dot2 (Finset.range norb.sum) h2 (offFrag2 norb i (makeRdm2 norb fr))) +
      (dot1 (Finset.range norb.sum) h1 (onFrag norb i (makeRdm1s norb fr)) +
        2⁻¹ * dot2 (Finset.range norb.sum) h2 (onFrag2 norb i (makeRdm2 norb fr))) +
      dot1 (Finset.range norb.sum) (vpot (Finset.range norb.sum) h2 (offFrag norb i (makeRdm1s norb fr)))
        (onFrag norb i (makeRdm1s norb fr)) := by
  unfold energyElec
  rw [← half_cross _ h2 hs two _ _ (off_symm norb fr hd i)]
  have e1 : dot1 (Finset.range norb.sum) h1 (makeRdm1s norb fr) =
      dot1 (Finset.range norb.sum) h1 (offFrag norb i (makeRdm1s norb fr)) +
        dot1 (Finset.range norb.sum) h1 (onFrag norb i (makeRdm1s norb fr)) := by
    rw [dot1_comm _ h1, dot1_comm _ h1, dot1_comm _ h1, ← dot1_add]
    exact dot1_congr _ _ _ _ _ (fun σ p _ q _ => by rw [← on_off norb i (makeRdm1s norb fr) σ p q])
  have e2 : dot2 (Finset.range norb.sum) h2 (makeRdm2 norb fr) =
      dot2 (Finset.range norb.sum) h2 (onFrag2 norb i (makeRdm2 norb fr)) +
        dot2 (Finset.range norb.sum) h2 (offFrag2 norb i (makeRdm2 norb fr)) +
        dot2 (Finset.range norb.sum) h2 (cross (offFrag norb i (makeRdm1s norb fr)) (onFrag norb i (makeRdm1s norb fr))) := by
    rw [← dot2_add, ← dot2_add]
    refine dot2_congr _ _ _ _ (fun p hp q hq r hr s hs => ?_)
    rw [Finset.mem_range] at hp hq hr hs
    exact rdm2_split norb fr i p q r s hp hq hr hs
  rw [e1, e2]
  ring

theorem h0eff_eq (norb : List Nat) (ecore : K) (h1 : Bool → Mat K) (h2 : Ten K) (two : (2 : K) ≠ 0) (hs : Sym h2)
    (fr : Nat → FragDm K) (hd : ∀ f, SymDensity (fr f).d) (i : Nat) :
    h0eff norb ecore h1 h2 fr i =
      ecore + dot1 (Finset.range norb.sum) h1 (offFrag norb i (makeRdm1s norb fr)) +
        2⁻¹ * dot2 (Finset.range norb.sum) h2 (offFrag2 norb i (makeRdm2 norb fr)) := by
  unfold h0eff
  simp only
  rw [energy_split norb ecore h1 h2 two hs fr hd i, dot1_slice, dot2_slice, dot1_sub, vpot_slice]
  have e1 : dot1 (Finset.range norb.sum) (makeRdm1s norb fr)
        (vpot (Finset.range norb.sum) h2 (onFrag norb i (makeRdm1s norb fr))) =
      dot1 (Finset.range norb.sum) (vpot (Finset.range norb.sum) h2 (offFrag norb i (makeRdm1s norb fr)))
        (onFrag norb i (makeRdm1s norb fr)) +
      dot1 (Finset.range norb.sum) (vpot (Finset.range norb.sum) h2 (onFrag norb i (makeRdm1s norb fr)))
        (onFrag norb i (makeRdm1s norb fr)) := by
    have h3 : dot1 (Finset.range norb.sum) (makeRdm1s norb fr)
        (vpot (Finset.range norb.sum) h2 (onFrag norb i (makeRdm1s norb fr))) =
        dot1 (Finset.range norb.sum) (offFrag norb i (makeRdm1s norb fr))
          (vpot (Finset.range norb.sum) h2 (onFrag norb i (makeRdm1s norb fr))) +
        dot1 (Finset.range norb.sum) (onFrag norb i (makeRdm1s norb fr))
          (vpot (Finset.range norb.sum) h2 (onFrag norb i (makeRdm1s norb fr))) := by
      rw [← dot1_add]
      exact dot1_congr _ _ _ _ _ (fun σ p _ q _ => by rw [← on_off norb i (makeRdm1s norb fr) σ p q])
    rw [h3, dot1_comm _ (offFrag norb i _), dot1_comm _ (onFrag norb i _),
      vpot_dot _ h2 _ (offFrag norb i _) (on_symm norb fr hd i), vpot_dot _ h2 _ (onFrag norb i _) (off_symm norb fr hd i),
      coul_comm _ h2 hs, exch_comm _ h2 hs, exch_comm _ h2 hs (onFrag norb i (makeRdm1s norb fr) true)]
  rw [e1]
  ring

theorem h1eff_dot (norb : List Nat) (h1 : Bool → Mat K) (h2 : Ten K) (fr : Nat → FragDm K) (i : Nat) (x : Bool → Mat K) :
    dot1 (Finset.range norb.sum) (h1eff norb h1 h2 fr i) x =
      dot1 (Finset.range norb.sum) h1 x +
        dot1 (Finset.range norb.sum) (vpot (Finset.range norb.sum) h2 (offFrag norb i (makeRdm1s norb fr))) x := by
  rw [← dot1_add]
  refine dot1_congr _ _ _ _ _ (fun σ p _ q _ => ?_)
  congr 1
  unfold h1eff
  rw [vpot_slice, vpot_congr (Finset.range norb.sum) h2 (makeRdm1s norb fr)
    (fun σ p q => offFrag norb i (makeRdm1s norb fr) σ p q + onFrag norb i (makeRdm1s norb fr) σ p q)
    (fun σ p _ q _ => on_off norb i (makeRdm1s norb fr) σ p q), vpot_add]
  ring

end PsEnergy
open PsEnergy
open Verif.Spec.SymBlocks (spaceOf)

/-- **C54**. The effective Hamiltonian of fragment `i` gives, for *every* state of that fragment, the energy of the product
of that state with the current states of all other fragments. -/
theorem C54_projected {K : Type} [Field K] (two : (2 : K) ≠ 0) (norb : List Nat) (ecore : K) (h1 : Bool → Mat K) (h2 : Ten K)
    (hs : Sym h2) (fr : Nat → FragDm K) (hd : ∀ f, SymDensity (fr f).d) (i : Nat) (new : FragDm K)
    (hnew : SymDensity new.d) :
    energyElec norb ecore h1 h2 (fun f => if f = i then new else fr f) =
      energy (norb.getD i 0) (h0eff norb ecore h1 h2 fr i)
        (fun σ p q => h1eff norb h1 h2 fr i σ (lo norb i + p) (lo norb i + q))
        (fun p q r s => h2 (lo norb i + p) (lo norb i + q) (lo norb i + r) (lo norb i + s)) new.d new.D := by
  let fr' : Nat → FragDm K := fun f => if f = i then new else fr f
  have hd' : ∀ f, SymDensity (fr' f).d := by
    intro f
    simp only [fr']
    split
    · exact hnew
    · exact hd f
  have hne : ∀ f, f ≠ i → fr' f = fr f := fun f h => by simp only [fr', if_neg h]
  have hm1 : ∀ σ, ∀ p ∈ Finset.range norb.sum, ∀ q ∈ Finset.range norb.sum,
      offFrag norb i (makeRdm1s norb fr') σ p q = offFrag norb i (makeRdm1s norb fr) σ p q := by
    intro σ p hp q hq
    rw [Finset.mem_range] at hp hq
    unfold offFrag
    by_cases h : spaceOf norb p = i ∧ spaceOf norb q = i
    · rw [if_pos h, if_pos h]
    · rw [if_neg h, if_neg h, makeRdm1s_eq norb fr' σ p q hp hq, makeRdm1s_eq norb fr σ p q hp hq]
      by_cases hpq : spaceOf norb p = spaceOf norb q
      · rw [if_pos hpq, if_pos hpq, hne _ (fun h' => h ⟨h', hpq ▸ h'⟩)]
      · rw [if_neg hpq, if_neg hpq]
  have hm1' : ∀ σ p q, p < norb.sum → q < norb.sum → spaceOf norb p ≠ i →
      makeRdm1s norb fr' σ p q = makeRdm1s norb fr σ p q := by
    intro σ p q hp hq h
    rw [makeRdm1s_eq norb fr' σ p q hp hq, makeRdm1s_eq norb fr σ p q hp hq, hne _ h]
  have hm2 : ∀ p ∈ Finset.range norb.sum, ∀ q ∈ Finset.range norb.sum, ∀ r ∈ Finset.range norb.sum,
      ∀ s ∈ Finset.range norb.sum,
      offFrag2 norb i (makeRdm2 norb fr') p q r s = offFrag2 norb i (makeRdm2 norb fr) p q r s := by
    intro p hp q hq r hr s hs
    rw [Finset.mem_range] at hp hq hr hs
    unfold offFrag2
    by_cases h : spaceOf norb p ≠ i ∧ spaceOf norb q ≠ i ∧ spaceOf norb r ≠ i ∧ spaceOf norb s ≠ i
    · rw [if_pos h, if_pos h, makeRdm2_eq norb fr' p q r s hp hq hr hs, makeRdm2_eq norb fr p q r s hp hq hr hs]
      simp only [hm1' _ p q hp hq h.1, hm1' _ p s hp hs h.1, hm1' _ r s hr hs h.2.2.1, hm1' _ q r hq hr h.2.1, hne _ h.1]
    · rw [if_neg h, if_neg h]
  have hS : ∀ x, x < norb.getD i 0 → lo norb i + x < norb.sum ∧ spaceOf norb (lo norb i + x) = i := by
    intro x hx
    have : lo norb i + x ∈ Finset.Ico (lo norb i) (hi norb i) := by
      rw [Finset.mem_Ico]; unfold hi; omega
    rw [slice_eq, Finset.mem_filter, Finset.mem_range] at this
    exact this
  rw [show (fun f => if f = i then new else fr f) = fr' from rfl, energy_split norb ecore h1 h2 two hs fr' hd' i]
  unfold energy
  rw [h0eff_eq norb ecore h1 h2 two hs fr hd i]
  have e1 : dot1 (Finset.range norb.sum) h1 (offFrag norb i (makeRdm1s norb fr')) =
      dot1 (Finset.range norb.sum) h1 (offFrag norb i (makeRdm1s norb fr)) :=
    dot1_congr _ _ _ _ _ (fun σ p hp q hq => by rw [hm1 σ p hp q hq])
  have e2 : dot2 (Finset.range norb.sum) h2 (offFrag2 norb i (makeRdm2 norb fr')) =
      dot2 (Finset.range norb.sum) h2 (offFrag2 norb i (makeRdm2 norb fr)) := dot2_congr _ _ _ _ hm2
  have e3 : dot1 (Finset.range norb.sum) (vpot (Finset.range norb.sum) h2 (offFrag norb i (makeRdm1s norb fr')))
        (onFrag norb i (makeRdm1s norb fr')) =
      dot1 (Finset.range norb.sum) (vpot (Finset.range norb.sum) h2 (offFrag norb i (makeRdm1s norb fr)))
        (onFrag norb i (makeRdm1s norb fr')) :=
    dot1_congr _ _ _ _ _ (fun σ p _ q _ => by rw [vpot_congr _ h2 _ _ hm1 σ p q])
  have e4 : (∑ σ : Bool, ∑ p ∈ Finset.range (norb.getD i 0), ∑ q ∈ Finset.range (norb.getD i 0),
        h1eff norb h1 h2 fr i σ (lo norb i + p) (lo norb i + q) * new.d σ p q) =
      dot1 (Finset.range norb.sum) (h1eff norb h1 h2 fr i) (onFrag norb i (makeRdm1s norb fr')) := by
    rw [← dot1_slice]
    unfold dot1
    refine Finset.sum_congr rfl (fun σ _ => ?_)
    rw [Finset.sum_Ico_eq_sum_range, show hi norb i - lo norb i = norb.getD i 0 from by unfold hi; omega]
    refine Finset.sum_congr rfl (fun p hp => ?_)
    rw [Finset.sum_Ico_eq_sum_range, show hi norb i - lo norb i = norb.getD i 0 from by unfold hi; omega]
    refine Finset.sum_congr rfl (fun q hq => ?_)
    rw [Finset.mem_range] at hp hq
    obtain ⟨a1, a2⟩ := hS p hp
    obtain ⟨b1, b2⟩ := hS q hq
    rw [makeRdm1s_eq norb fr' σ _ _ a1 b1, if_pos (a2.trans b2.symm), a2]
    simp only [fr', if_true, Nat.add_sub_cancel_left]
  have e5 : (∑ p ∈ Finset.range (norb.getD i 0), ∑ q ∈ Finset.range (norb.getD i 0), ∑ r ∈ Finset.range (norb.getD i 0),
        ∑ s ∈ Finset.range (norb.getD i 0),
        h2 (lo norb i + p) (lo norb i + q) (lo norb i + r) (lo norb i + s) * new.D p q r s) =
      dot2 (Finset.range norb.sum) h2 (onFrag2 norb i (makeRdm2 norb fr')) := by
    rw [← dot2_slice]
    unfold dot2
    have hlen : hi norb i - lo norb i = norb.getD i 0 := by unfold hi; omega
    simp only [Finset.sum_Ico_eq_sum_range, hlen]
    refine Finset.sum_congr rfl (fun p hp => Finset.sum_congr rfl (fun q hq => Finset.sum_congr rfl (fun r hr =>
      Finset.sum_congr rfl (fun s hs => ?_))))
    rw [Finset.mem_range] at hp hq hr hs
    obtain ⟨a1, a2⟩ := hS p hp
    obtain ⟨b1, b2⟩ := hS q hq
    obtain ⟨c1, c2⟩ := hS r hr
    obtain ⟨d1, d2⟩ := hS s hs
    rw [makeRdm2_eq norb fr' _ _ _ _ a1 b1 c1 d1, if_pos ⟨a2.trans b2.symm, b2.trans c2.symm, c2.trans d2.symm⟩, a2]
    simp only [fr', if_true, Nat.add_sub_cancel_left]
  rw [e1, e2, e3, e4, e5, h1eff_dot]
  ring

/-- **C54**, as stated: for every fragment, constant, one-body and half the two-body part of its effective Hamiltonian
contracted with its current densities give the total energy. -/
theorem C54_current {K : Type} [Field K] (two : (2 : K) ≠ 0) (norb : List Nat) (ecore : K) (h1 : Bool → Mat K) (h2 : Ten K)
    (hs : Sym h2) (fr : Nat → FragDm K) (hd : ∀ f, SymDensity (fr f).d) (i : Nat) :
    energyElec norb ecore h1 h2 fr =
      energy (norb.getD i 0) (h0eff norb ecore h1 h2 fr i)
        (fun σ p q => h1eff norb h1 h2 fr i σ (lo norb i + p) (lo norb i + q))
        (fun p q r s => h2 (lo norb i + p) (lo norb i + q) (lo norb i + r) (lo norb i + s)) (fr i).d (fr i).D := by
  have h := C54_projected two norb ecore h1 h2 hs fr hd i (fr i) (hd i)
  rw [← h]
  congr 1
  funext f
  split
  · rename_i hf; rw [hf]
  · rfl

/-- Example: integrals and densities over the rationals that meet the hypotheses, two fragments of 2 and 1 orbitals. -/
example : (2 : ℚ) ≠ 0 ∧ Sym (fun p q r s => ((p * q + 1) * (r * s + 1) : ℚ)) ∧
    SymDensity (fun σ p q => if σ then (p + q : ℚ) else 1) ∧ 1 < [2, 1].length := by
  refine ⟨by norm_num, ⟨fun p q r s => by ring, fun p q r s => by ring⟩, fun σ p q => ?_, by decide⟩
  cases σ
  · rfl
  · simp only [if_true]; ring

end Verif.Props
