import Verif.Spec.Radix
import Mathlib.Tactic.Ring
import Mathlib.Tactic.Linarith
import Mathlib.Data.List.Forall2
namespace Verif.Radix
open Verif.Spec

theorem posC_lt {t dims : List Nat} (h : InShape t dims) : posC dims t < dims.prod := by
  induction h with
  | nil => simp [posC]
  | @cons d b ds bs hd _ ih =>
    simp only [posC, List.prod_cons]
    have : (d + 1) * bs.prod ≤ b * bs.prod := Nat.mul_le_mul_right _ hd
    rw [Nat.add_mul] at this
    omega

theorem posF_lt {t dims : List Nat} (h : InShape t dims) : posF dims t < dims.prod := by
  induction h with
  | nil => simp [posF]
  | @cons d b ds bs hd _ ih =>
    simp only [posF, List.prod_cons]
    have : b * (posF bs ds + 1) ≤ b * bs.prod := Nat.mul_le_mul_left _ ih
    rw [Nat.mul_add] at this
    omega

theorem posC_inj {t t' dims : List Nat} (h : InShape t dims) (h' : InShape t' dims)
    (e : posC dims t = posC dims t') : t = t' := by
  induction h generalizing t' with
  | nil => cases h'; rfl
  | @cons d b ds bs hd hds ih =>
    cases h' with
    | @cons d' _ ds' _ hd' hds' =>
      simp only [posC] at e
      have h1 := posC_lt hds
      have h2 := posC_lt hds'
      have hp : 0 < bs.prod := by omega
      have e1 : d = d' := by
        have := congrArg (· / bs.prod) e
        rwa [Nat.mul_comm d, Nat.mul_comm d', Nat.mul_add_div hp, Nat.mul_add_div hp, Nat.div_eq_of_lt h1,
          Nat.div_eq_of_lt h2] at this
      subst e1
      rw [ih hds' (by omega)]

theorem posF_inj {t t' dims : List Nat} (h : InShape t dims) (h' : InShape t' dims)
    (e : posF dims t = posF dims t') : t = t' := by
  induction h generalizing t' with
  | nil => cases h'; rfl
  | @cons d b ds bs hd hds ih =>
    cases h' with
    | @cons d' _ ds' _ hd' hds' =>
      simp only [posF] at e
      have e1 : d = d' := by
        have := congrArg (· % b) e
        simpa [Nat.add_mul_mod_self_left, Nat.mod_eq_of_lt hd, Nat.mod_eq_of_lt hd'] using this
      subst e1
      have hb : 0 < b := by omega
      have e2 : b * posF bs ds = b * posF bs ds' := by omega
      rw [ih hds' (Nat.eq_of_mul_eq_mul_left hb e2)]

theorem posC_surj (dims : List Nat) (k : Nat) (h : k < dims.prod) :
    ∃ t, InShape t dims ∧ posC dims t = k := by
  induction dims generalizing k with
  | nil => simp at h; exact ⟨[], List.Forall₂.nil, by simp [posC, h]⟩
  | cons b bs ih =>
    rw [List.prod_cons] at h
    have hp : 0 < bs.prod := by
      rcases Nat.eq_zero_or_pos bs.prod with h0 | h0
      · rw [h0] at h; omega
      · exact h0
    obtain ⟨t, ht, e⟩ := ih (k % bs.prod) (Nat.mod_lt _ hp)
    refine ⟨(k / bs.prod) :: t, List.Forall₂.cons ?_ ht, ?_⟩
    · exact (Nat.div_lt_iff_lt_mul hp).mpr h
    · simp only [posC, e]
      rw [Nat.mul_comm]
      exact Nat.div_add_mod k bs.prod

/-- the digits of `k`, first digit fastest -/
def digits : List Nat → Nat → List Nat
  | b :: bs, k => (k % b) :: digits bs (k / b)
  | [], _ => []

theorem digits_inShape (dims : List Nat) (k : Nat) (h : k < dims.prod) : InShape (digits dims k) dims := by
  induction dims generalizing k with
  | nil => exact List.Forall₂.nil
  | cons b bs ih =>
    rw [List.prod_cons] at h
    have hb : 0 < b := by
      rcases Nat.eq_zero_or_pos b with h0 | h0
      · rw [h0] at h; omega
      · exact h0
    refine List.Forall₂.cons (Nat.mod_lt _ hb) (ih _ ?_)
    rw [Nat.div_lt_iff_lt_mul hb, Nat.mul_comm]
    exact h

theorem posF_digits (dims : List Nat) (k : Nat) (h : k < dims.prod) : posF dims (digits dims k) = k := by
  induction dims generalizing k with
  | nil => simp at h; simp [posF, h]
  | cons b bs ih =>
    rw [List.prod_cons] at h
    have hb : 0 < b := by
      rcases Nat.eq_zero_or_pos b with h0 | h0
      · rw [h0] at h; omega
      · exact h0
    simp only [digits, posF]
    rw [ih _ (by rw [Nat.div_lt_iff_lt_mul hb, Nat.mul_comm]; exact h)]
    exact Nat.mod_add_div k b

theorem digits_posF {t dims : List Nat} (h : InShape t dims) : digits dims (posF dims t) = t :=
  posF_inj (digits_inShape _ _ (posF_lt h)) h (posF_digits _ _ (posF_lt h))

theorem posF_surj (dims : List Nat) (k : Nat) (h : k < dims.prod) :
    ∃ t, InShape t dims ∧ posF dims t = k :=
  ⟨digits dims k, digits_inShape dims k h, posF_digits dims k h⟩

theorem posC_append (xs ys ds es : List Nat) (h : ds.length = xs.length) :
    posC (xs ++ ys) (ds ++ es) = posC xs ds * ys.prod + posC ys es := by
  induction xs generalizing ds with
  | nil => simp at h; simp [h, posC]
  | cons x xs ih =>
    cases ds with
    | nil => simp at h
    | cons d ds =>
      simp only [List.cons_append, posC, List.prod_append]
      rw [ih ds (by simpa using h)]
      ring

theorem posF_append (xs ys ds es : List Nat) (h : ds.length = xs.length) :
    posF (xs ++ ys) (ds ++ es) = posF xs ds + xs.prod * posF ys es := by
  induction xs generalizing ds with
  | nil => simp at h; simp [h, posF]
  | cons x xs ih =>
    cases ds with
    | nil => simp at h
    | cons d ds =>
      simp only [List.cons_append, posF, List.prod_cons]
      rw [ih ds (by simpa using h)]
      ring

theorem posF_eq_posC_reverse (dims t : List Nat) (h : t.length = dims.length) :
    posF dims t = posC dims.reverse t.reverse := by
  induction dims generalizing t with
  | nil => simp at h; simp [h, posF, posC]
  | cons b bs ih =>
    cases t with
    | nil => simp at h
    | cons d ds =>
      simp only [List.reverse_cons, posF]
      rw [posC_append _ _ _ _ (by simpa using h), ih ds (by simpa using h)]
      simp [posC]
      ring

theorem inShape_length {t dims : List Nat} (h : InShape t dims) : t.length = dims.length := h.length_eq

theorem inShape_iff (t dims : List Nat) :
    InShape t dims ↔ t.length = dims.length ∧ ∀ i, i < dims.length → t.getD i 0 < dims.getD i 0 := by
  constructor
  · intro h
    refine ⟨h.length_eq, ?_⟩
    induction h with
    | nil => simp
    | cons hd _ ih =>
      intro i hi
      cases i with
      | zero => simpa using hd
      | succ i => simpa using ih i (by simpa using hi)
  · rintro ⟨hl, h⟩
    induction dims generalizing t with
    | nil => simp at hl; subst hl; exact List.Forall₂.nil
    | cons b bs ih =>
      cases t with
      | nil => simp at hl
      | cons d ds =>
        refine List.Forall₂.cons (by simpa using h 0 (by simp)) (ih ds (by simpa using hl) ?_)
        intro i hi
        simpa using h (i + 1) (by simpa using hi)

theorem inShape_append {a b c d : List Nat} (h1 : InShape a c) (h2 : InShape b d) :
    InShape (a ++ b) (c ++ d) := List.rel_append h1 h2

/-- digit `i` of `k` -/
theorem digits_getD (dims : List Nat) (k i : Nat) (hi : i < dims.length) :
    (digits dims k).getD i 0 = (k / (dims.take i).prod) % dims.getD i 0 := by
  induction dims generalizing k i with
  | nil => simp at hi
  | cons b bs ih =>
    cases i with
    | zero => simp [digits]
    | succ i =>
      simp only [digits, List.getD_cons_succ, List.take_succ_cons, List.prod_cons]
      rw [ih _ _ (by simpa using hi), Nat.div_div_eq_div_mul]

theorem digits_length (dims : List Nat) (k : Nat) : (digits dims k).length = dims.length := by
  induction dims generalizing k with
  | nil => rfl
  | cons b bs ih => simp [digits, ih]

/-- order of digit lists: colexicographic -/
theorem digits_colex (dims : List Nat) (k k' : Nat) (hk' : k' < dims.prod) (h : k < k') :
    ∃ i, i < dims.length ∧ (digits dims k).getD i 0 < (digits dims k').getD i 0 ∧
      ∀ j, i < j → j < dims.length → (digits dims k).getD j 0 = (digits dims k').getD j 0 := by
  induction dims generalizing k k' with
  | nil => simp at hk'; omega
  | cons b bs ih =>
    rw [List.prod_cons] at hk'
    have hb : 0 < b := by
      rcases Nat.eq_zero_or_pos b with h0 | h0
      · rw [h0] at hk'; omega
      · exact h0
    rcases Nat.lt_or_eq_of_le (Nat.div_le_div_right (c := b) (Nat.le_of_lt h)) with hlt | heq
    · obtain ⟨i, h1, h2, h3⟩ := ih (k / b) (k' / b)
        (by rw [Nat.div_lt_iff_lt_mul hb, Nat.mul_comm]; exact hk') hlt
      refine ⟨i + 1, by simpa using h1, by simpa [digits] using h2, ?_⟩
      intro j hj hjl
      obtain ⟨j', rfl⟩ : ∃ j', j = j' + 1 := ⟨j - 1, by omega⟩
      simpa [digits] using h3 j' (by omega) (by simpa using hjl)
    · refine ⟨0, by simp, ?_, ?_⟩
      · simp only [digits, List.getD_cons_zero]
        have e1 := Nat.div_add_mod k b
        have e2 := Nat.div_add_mod k' b
        rw [heq] at e1
        omega
      · intro j hj hjl
        obtain ⟨j', rfl⟩ : ∃ j', j = j' + 1 := ⟨j - 1, by omega⟩
        simp [digits, heq]

end Verif.Radix
