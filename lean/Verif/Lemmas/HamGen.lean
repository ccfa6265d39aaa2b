import Verif.Lemmas.HamBlk
import Mathlib.Tactic.IntervalCases
/-!
# Lemmas: functionals of the arrays of one row
-/
namespace Verif.Lstdm
open Verif.Spec.Tdm Verif.Spec.Lstdm Verif.Spec.Fockspace Verif.Tdm Verif.Signs

variable {K : Type} [Field K]

/-- Coefficients for equal and for opposite spins. -/
def gg (Gs Go : Nat → Nat → Nat → Nat → K) : D2 K := fun st => if st = 0 ∨ st = 3 then Gs else Go

/-- Exchange of the second and fourth index. -/
def exch (G : Nat → Nat → Nat → Nat → K) : Nat → Nat → Nat → Nat → K := fun p q r u => G p u r q

/-- Symmetric under exchange of the pairs. -/
def Sw (G : Nat → Nat → Nat → Nat → K) : Prop := ∀ p q r u, G r u p q = G p q r u

theorem gg0 (Gs Go : Nat → Nat → Nat → Nat → K) : gg Gs Go 0 = Gs := rfl
theorem gg1 (Gs Go : Nat → Nat → Nat → Nat → K) : gg Gs Go 1 = Go := rfl
theorem gg2 (Gs Go : Nat → Nat → Nat → Nat → K) : gg Gs Go 2 = Go := rfl
theorem gg3 (Gs Go : Nat → Nat → Nat → Nat → K) : gg Gs Go 3 = Gs := rfl

theorem B4_sw {G : Nat → Nat → Nat → Nat → K} (hG : Sw G) (ns : List Nat) (i j k l : Nat) (f : Nat → Nat → Nat → Nat → K) :
    B4 ns G k l i j (fun x0 x1 x2 x3 => f x2 x3 x0 x1) = B4 ns G i j k l f := by
  rw [B4_swap]
  congr 1
  funext p q r u
  exact hG p q r u

theorem B4_ex1 (G : Nat → Nat → Nat → Nat → K) (ns : List Nat) (i j k l : Nat) (f : Nat → Nat → Nat → Nat → K) :
    B4 ns G i l k j (fun x0 x1 x2 x3 => f x0 x3 x2 x1) = B4 ns (exch G) i j k l f := by
  rw [B4_exch]; rfl

theorem B4_ex2 {G : Nat → Nat → Nat → Nat → K} (hG : Sw G) (ns : List Nat) (i j k l : Nat) (f : Nat → Nat → Nat → Nat → K) :
    B4 ns G k j i l (fun x0 x1 x2 x3 => f x2 x1 x0 x3) = B4 ns (exch G) i j k l f := by
  rw [B4_exch']
  congr 1
  funext p q r u
  exact hG p u r q

theorem B4_ex1n (G : Nat → Nat → Nat → Nat → K) (ns : List Nat) (i j k l : Nat) (f : Nat → Nat → Nat → Nat → K) :
    B4 ns G i l k j (fun x0 x1 x2 x3 => -f x0 x3 x2 x1) = -B4 ns (exch G) i j k l f := by
  rw [B4_neg ns G i l k j (fun x0 x1 x2 x3 => f x0 x3 x2 x1), B4_ex1]

theorem B4_ex2n {G : Nat → Nat → Nat → Nat → K} (hG : Sw G) (ns : List Nat) (i j k l : Nat) (f : Nat → Nat → Nat → Nat → K) :
    B4 ns G k j i l (fun x0 x1 x2 x3 => -f x2 x1 x0 x3) = -B4 ns (exch G) i j k l f := by
  rw [B4_neg ns G k j i l (fun x0 x1 x2 x3 => f x2 x1 x0 x3), B4_ex2 hG]

section
variable (ns : List Nat) {Gs Go : Nat → Nat → Nat → Nat → K} (hs : Sw Gs) (ho : Sw Go)
include hs ho

/-- `_crunch_2d_`. -/
theorem L2_2d (i j : Nat) (hi : i < ns.length) (hj : j < ns.length) (hij : i ≠ j) (iijj : D2 K) :
    L2 ns.sum (gg Gs Go) (
      put4 (put4 (put4 (put4 (put4 zero2 [0, 1, 2, 3] (getRange ns i) (getRange ns i) (getRange ns j) (getRange ns j) iijj)
        [0, 3] (getRange ns j) (getRange ns j) (getRange ns i) (getRange ns i) (fun k x0 x1 x2 x3 => iijj ([0, 3].getD k 0) x2 x3 x0 x1))
        [1, 2] (getRange ns j) (getRange ns j) (getRange ns i) (getRange ns i) (fun k x0 x1 x2 x3 => iijj ([2, 1].getD k 0) x2 x3 x0 x1))
        [0, 3] (getRange ns i) (getRange ns j) (getRange ns j) (getRange ns i) (fun k x0 x1 x2 x3 => -iijj ([0, 3].getD k 0) x0 x3 x2 x1))
        [0, 3] (getRange ns j) (getRange ns i) (getRange ns i) (getRange ns j) (fun k x0 x1 x2 x3 => -iijj ([0, 3].getD k 0) x2 x1 x0 x3)) =
    2 * (B4 ns Gs i i j j (iijj 0) + B4 ns Go i i j j (iijj 1) + B4 ns Go i i j j (iijj 2) + B4 ns Gs i i j j (iijj 3)) -
      2 * (B4 ns (exch Gs) i i j j (iijj 0) + B4 ns (exch Gs) i i j j (iijj 3)) := by
  have hji := Ne.symm hij
  rw [L2_put _ _ _ _ _ _ _ _ hj hi hi hj _ (by
      intro st _
      refine zr_put (zr_put (zr_put (zr_put (zr_zero ns st j i i j) _ _ _ _ _ _ ?_) _ _ _ _ _ _ ?_) _ _ _ _ _ _ ?_) _ _ _ _ _ _ ?_ <;>
        simp [hij, hji]),
    L2_put _ _ _ _ _ _ _ _ hi hj hj hi _ (by
      intro st _
      refine zr_put (zr_put (zr_put (zr_zero ns st i j j i) _ _ _ _ _ _ ?_) _ _ _ _ _ _ ?_) _ _ _ _ _ _ ?_ <;> simp [hij, hji]),
    L2_put _ _ _ _ _ _ _ _ hj hj hi hi _ (by
      intro st hst
      refine zr_put (zr_put (zr_zero ns st j j i i) _ _ _ _ _ _ ?_) _ _ _ _ _ _ ?_
      · simp [hji]
      · simp at hst; rcases hst with rfl | rfl <;> simp),
    L2_put _ _ _ _ _ _ _ _ hj hj hi hi _ (by
      intro st _
      refine zr_put (zr_zero ns st j j i i) _ _ _ _ _ _ ?_
      simp [hji]),
    L2_put _ _ _ _ _ _ _ _ hi hi hj hj _ (fun st _ => zr_zero ns st _ _ _ _), L2_zero]
  have e : ∀ F : Nat → K, ∑ st ∈ Finset.range 4, F st = F 0 + F 1 + F 2 + F 3 := by
    intro F; simp [Finset.sum_range_succ]
  simp only [e, List.mem_cons, List.not_mem_nil, or_false, if_true, if_false, gg0, gg1, gg2, gg3, true_or, or_true, zero_ne_one, one_ne_zero,
    show ¬ (0 : Nat) = 1 from by decide, show ¬ (0 : Nat) = 2 from by decide, show ¬ (0 : Nat) = 3 from by decide,
    show ¬ (1 : Nat) = 2 from by decide, show ¬ (1 : Nat) = 3 from by decide, show ¬ (2 : Nat) = 3 from by decide,
    show ¬ (1 : Nat) = 0 from by decide, show ¬ (2 : Nat) = 0 from by decide, show ¬ (3 : Nat) = 0 from by decide,
    show ¬ (2 : Nat) = 1 from by decide, show ¬ (3 : Nat) = 1 from by decide, show ¬ (3 : Nat) = 2 from by decide, or_self]
  have i1 : ([0, 1, 2, 3] : List Nat).idxOf 0 = 0 := by decide
  have i2 : ([0, 1, 2, 3] : List Nat).idxOf 1 = 1 := by decide
  have i3 : ([0, 1, 2, 3] : List Nat).idxOf 2 = 2 := by decide
  have i4 : ([0, 1, 2, 3] : List Nat).idxOf 3 = 3 := by decide
  have i5 : ([0, 3] : List Nat).getD (([0, 3] : List Nat).idxOf 0) 0 = 0 := by decide
  have i6 : ([0, 3] : List Nat).getD (([0, 3] : List Nat).idxOf 3) 0 = 3 := by decide
  have i7 : ([2, 1] : List Nat).getD (([1, 2] : List Nat).idxOf 1) 0 = 2 := by decide
  have i8 : ([2, 1] : List Nat).getD (([1, 2] : List Nat).idxOf 2) 0 = 1 := by decide
  rw [i1, i2, i3, i4, i5, i6, i7, i8]
  rw [B4_sw hs ns i i j j, B4_sw hs ns i i j j, B4_sw ho ns i i j j, B4_sw ho ns i i j j,
    B4_ex1n Gs ns i i j j, B4_ex1n Gs ns i i j j, B4_ex2n hs ns i i j j, B4_ex2n hs ns i i j j]
  ring

/-- The arrays of the spin cases of one hop. -/
theorem gg_pair (s1 : Nat) (h1 : s1 < 2) (P Q : (Nat → Nat → Nat → Nat → K) → Nat → K) :
    P (gg Gs Go (s1 * 2)) 0 + P (gg Gs Go (s1 * 2 + 1)) 1 = P Gs s1 + P Go (1 - s1) ∧
    Q (gg Gs Go s1) 0 + Q (gg Gs Go (s1 + 2)) 1 = Q Gs s1 + Q Go (1 - s1) ∧ gg Gs Go (s1 * 3) = Gs := by
  clear hs ho
  interval_cases s1
  · exact ⟨rfl, rfl, rfl⟩
  · exact ⟨add_comm _ _, add_comm _ _, rfl⟩

/-- `_crunch_1c_tdm2` with three different fragments. -/
theorem L2_1cA (s1 : Nat) (h1 : s1 < 2) (i j k : Nat) (hi : i < ns.length) (hj : j < ns.length) (hk : k < ns.length) (hij : i ≠ j) (hik : i ≠ k)
    (hjk : j ≠ k) (blk : Nat → Nat → Nat → Nat → Nat → K) :
    L2 ns.sum (gg Gs Go) (Lstdm.crunch1cTdm2 s1 zero2 blk (getRange ns i) (getRange ns j) (getRange ns k)) =
      2 * (B4 ns Gs i j k k (blk s1) + B4 ns Go i j k k (blk (1 - s1))) - 2 * B4 ns (exch Gs) i j k k (blk s1) := by
  have hji := Ne.symm hij
  have hki := Ne.symm hik
  have hkj := Ne.symm hjk
  unfold Lstdm.crunch1cTdm2
  dsimp only
  have z1 : ∀ st ss f, Zr ns (put4 (zero2 : D2 K) ss (getRange ns i) (getRange ns j) (getRange ns k) (getRange ns k) f) st k k i j :=
    fun st ss f => zr_put (zr_zero ns st k k i j) _ _ _ _ _ _ (by simp [hki])
  rw [L2_put1 _ _ _ _ _ _ _ _ (by omega) hk hj hi hk _ (by
      refine zr_put (zr_put (zr_put (zr_zero ns _ k j i k) _ _ _ _ _ _ ?_) _ _ _ _ _ _ ?_) _ _ _ _ _ _ ?_ <;>
        simp [hij, hji, hik, hki, hjk, hkj]),
    L2_put1 _ _ _ _ _ _ _ _ (by omega) hi hk hk hj _ (by
      refine zr_put (zr_put (zr_zero ns _ i k k j) _ _ _ _ _ _ ?_) _ _ _ _ _ _ ?_ <;> simp [hij, hji, hik, hki, hjk, hkj]),
    L2_put2 _ _ _ _ _ _ _ _ _ (by omega) (by omega) (by omega) hk hk hi hj _ (z1 _ _ _) (z1 _ _ _),
    L2_put2 _ _ _ _ _ _ _ _ _ (by omega) (by omega) (by omega) hi hj hk hk _ (zr_zero ns _ _ _ _ _) (zr_zero ns _ _ _ _ _), L2_zero]
  obtain ⟨e1, e2, e3⟩ := gg_pair hs ho s1 h1 (fun G t => B4 ns G i j k k (blk t))
    (fun G t => B4 ns G k k i j (fun x0 x1 x2 x3 => blk t x2 x3 x0 x1))
  rw [e1, e2, e3, B4_ex2n hs ns i j k k, B4_ex1n Gs ns i j k k, B4_sw hs ns i j k k, B4_sw ho ns i j k k]
  ring

/-- `_crunch_1c_tdm2` when the third fragment is one of the first two. -/
theorem L2_1cB (s1 : Nat) (h1 : s1 < 2) (d : D2 K) (i j k : Nat) (hi : i < ns.length) (hj : j < ns.length) (hk : k < ns.length) (hij : i ≠ j)
    (blk : Nat → Nat → Nat → Nat → Nat → K) (hd : ∀ st, Zr ns d st i j k k ∧ Zr ns d st k k i j)
    (hc : (k = i ∧ ∀ a b c e, a < ns.getD i 0 → b < ns.getD j 0 → c < ns.getD k 0 → e < ns.getD k 0 → blk s1 c b a e = -blk s1 a b c e) ∨
      (k = j ∧ ∀ a b c e, a < ns.getD i 0 → b < ns.getD j 0 → c < ns.getD k 0 → e < ns.getD k 0 → blk s1 a e c b = -blk s1 a b c e)) :
    Lstdm.crunch1cTdm2 s1 d blk (getRange ns i) (getRange ns j) (getRange ns k) =
      put4 (put4 d [s1 * 2, s1 * 2 + 1] (getRange ns i) (getRange ns j) (getRange ns k) (getRange ns k) blk) [s1, s1 + 2]
        (getRange ns k) (getRange ns k) (getRange ns i) (getRange ns j) (fun t x0 x1 x2 x3 => blk t x2 x3 x0 x1) ∧
    L2 ns.sum (gg Gs Go) (Lstdm.crunch1cTdm2 s1 d blk (getRange ns i) (getRange ns j) (getRange ns k)) = L2 ns.sum (gg Gs Go) d +
      2 * (B4 ns Gs i j k k (blk s1) + B4 ns Go i j k k (blk (1 - s1))) := by
  have hji := Ne.symm hij
  have hm1 : s1 * 3 ∈ [s1 * 2, s1 * 2 + 1] := by interval_cases s1 <;> simp
  have hm2 : s1 * 3 ∈ [s1, s1 + 2] := by interval_cases s1 <;> simp
  have hx1 : [s1 * 2, s1 * 2 + 1].idxOf (s1 * 3) = s1 := by interval_cases s1 <;> decide
  have hx2 : [s1, s1 + 2].idxOf (s1 * 3) = s1 := by interval_cases s1 <;> decide
  have hkk : ¬ (k = i ∧ k = j) := by rintro ⟨h, h'⟩; exact hij (h.symm.trans h')
  have E : Lstdm.crunch1cTdm2 s1 d blk (getRange ns i) (getRange ns j) (getRange ns k) =
      put4 (put4 d [s1 * 2, s1 * 2 + 1] (getRange ns i) (getRange ns j) (getRange ns k) (getRange ns k) blk) [s1, s1 + 2]
        (getRange ns k) (getRange ns k) (getRange ns i) (getRange ns j) (fun t x0 x1 x2 x3 => blk t x2 x3 x0 x1) := by
    unfold Lstdm.crunch1cTdm2
    dsimp only
    rcases hc with ⟨rfl, hc⟩ | ⟨rfl, hc⟩
    · rw [put4_noop ns _ _ k k k j, put4_noop ns _ _ k j k k]
      · intro st hst a b c e ha hb hcc he
        simp only [List.mem_singleton] at hst
        subst hst
        rw [put4_out _ _ _ _ _ _ _ _ _ _ _ _ _ _ _ _ _ (by simp [hji]) ha hb hcc he, put4_in _ _ _ _ _ _ _ _ _ _ _ _ _ hm1 ha hb hcc he, hx1,
          hc a b c e ha hb hcc he, neg_neg]
      · intro st hst a b c e ha hb hcc he
        simp only [List.mem_singleton] at hst
        subst hst
        rw [put4_in _ _ _ _ _ _ _ _ _ _ _ _ _ hm2 ha hb hcc he, hx2, hc a e c b ha he hcc hb]
    · rw [put4_noop ns _ _ i k k k, put4_noop ns _ _ k k i k]
      · intro st hst a b c e ha hb hcc he
        simp only [List.mem_singleton] at hst
        subst hst
        rw [put4_in _ _ _ _ _ _ _ _ _ _ _ _ _ hm2 ha hb hcc he, hx2, hc c b a e hcc hb ha he]
      · intro st hst a b c e ha hb hcc he
        simp only [List.mem_singleton] at hst
        subst hst
        rw [put4_out _ _ _ _ _ _ _ _ _ _ _ _ _ _ _ _ _ (by simp [hij]) ha hb hcc he, put4_in _ _ _ _ _ _ _ _ _ _ _ _ _ hm1 ha hb hcc he, hx1,
          hc a b c e ha hb hcc he, neg_neg]
  refine ⟨E, ?_⟩
  rw [E]
  have z1 : ∀ st ss f, Zr ns (put4 d ss (getRange ns i) (getRange ns j) (getRange ns k) (getRange ns k) f) st k k i j :=
    fun st ss f => zr_put (hd st).2 _ _ _ _ _ _ (by rintro ⟨_, h, h', _⟩; exact hkk ⟨h, h'⟩)
  rw [L2_put2 _ _ _ _ _ _ _ _ _ (by omega) (by omega) (by omega) hk hk hi hj _ (z1 _ _ _) (z1 _ _ _),
    L2_put2 _ _ _ _ _ _ _ _ _ (by omega) (by omega) (by omega) hi hj hk hk _ (hd _).1 (hd _).1]
  obtain ⟨e1, e2, e3⟩ := gg_pair hs ho s1 h1 (fun G t => B4 ns G i j k k (blk t))
    (fun G t => B4 ns G k k i j (fun x0 x1 x2 x3 => blk t x2 x3 x0 x1))
  rw [e1, e2, B4_sw hs ns i j k k, B4_sw ho ns i j k k]
  ring

/-- `_crunch_1s_`. -/
theorem L2_1s (i j : Nat) (hi : i < ns.length) (hj : j < ns.length) (spsm : Nat → Nat → Nat → Nat → K) :
    L2 ns.sum (gg Gs Go) (put4 (put4 zero2 [1] (getRange ns i) (getRange ns j) (getRange ns j) (getRange ns i)
        (fun _ x0 x1 x2 x3 => spsm x0 x3 x2 x1)) [2] (getRange ns j) (getRange ns i) (getRange ns i) (getRange ns j)
        (fun _ x0 x1 x2 x3 => spsm x2 x1 x0 x3)) = 2 * B4 ns (exch Go) i i j j spsm := by
  rw [L2_put1 _ _ _ _ _ _ _ _ (by omega) hj hi hi hj _ (zr_put (zr_zero ns _ _ _ _ _) _ _ _ _ _ _ (by simp)),
    L2_put1 _ _ _ _ _ _ _ _ (by omega) hi hj hj hi _ (zr_zero ns _ _ _ _ _), L2_zero, gg1, gg2, B4_ex1 Go ns i i j j, B4_ex2 ho ns i i j j]
  ring

/-- `_crunch_1s1c_`. -/
theorem L2_1s1c (s1 : Nat) (h1 : s1 < 2) (i j k : Nat) (hi : i < ns.length) (hj : j < ns.length) (hk : k < ns.length)
    (f : Nat → Nat → Nat → Nat → K) :
    L2 ns.sum (gg Gs Go) (put4 (put4 zero2 [1 + s1] (getRange ns i) (getRange ns k) (getRange ns k) (getRange ns j) (fun _ => f))
      [2 - s1] (getRange ns k) (getRange ns j) (getRange ns i) (getRange ns k) (fun _ x0 x1 x2 x3 => f x2 x3 x0 x1)) =
      2 * B4 ns Go i k k j f := by
  rw [L2_put1 _ _ _ _ _ _ _ _ (by omega) hk hj hi hk _ (zr_put (zr_zero ns _ _ _ _ _) _ _ _ _ _ _ (by
      rintro ⟨h, _⟩; simp at h; omega)),
    L2_put1 _ _ _ _ _ _ _ _ (by omega) hi hk hk hj _ (zr_zero ns _ _ _ _ _), L2_zero]
  have e1 : gg Gs Go (1 + s1) = Go := by interval_cases s1 <;> rfl
  have e2 : gg Gs Go (2 - s1) = Go := by interval_cases s1 <;> rfl
  rw [e1, e2, B4_sw ho ns i k k j]
  ring

/-- `_crunch_2c_`, different spins. -/
theorem L2_2cO (i j k l : Nat) (hi : i < ns.length) (hj : j < ns.length) (hk : k < ns.length) (hl : l < ns.length)
    (f : Nat → Nat → Nat → Nat → K) :
    L2 ns.sum (gg Gs Go) (put4 (put4 zero2 [1] (getRange ns i) (getRange ns j) (getRange ns k) (getRange ns l) (fun _ => f))
      [2] (getRange ns k) (getRange ns l) (getRange ns i) (getRange ns j) (fun _ x0 x1 x2 x3 => f x2 x3 x0 x1)) =
      2 * B4 ns Go i j k l f := by
  rw [L2_put1 _ _ _ _ _ _ _ _ (by omega) hk hl hi hj _ (zr_put (zr_zero ns _ _ _ _ _) _ _ _ _ _ _ (by simp)),
    L2_put1 _ _ _ _ _ _ _ _ (by omega) hi hj hk hl _ (zr_zero ns _ _ _ _ _), L2_zero, gg1, gg2, B4_sw ho ns i j k l]
  ring

/-- `_crunch_2c_`, equal spins. -/
theorem L2_2cS (s : Nat) (h3 : s = 0 ∨ s = 3) (i j k l : Nat) (hi : i < ns.length) (hj : j < ns.length) (hk : k < ns.length) (hl : l < ns.length)
    (pp hh : Nat → Nat → K) (x : K)
    (hp : i = k → ∀ a b, a < ns.getD i 0 → b < ns.getD i 0 → pp b a = -pp a b)
    (hq : j = l → ∀ a b, a < ns.getD j 0 → b < ns.getD j 0 → hh b a = -hh a b) :
    L2 ns.sum (gg Gs Go) (put4 (put4 (put4 (put4 zero2
      [s] (getRange ns i) (getRange ns j) (getRange ns k) (getRange ns l) (fun _ x0 x1 x2 x3 => x * (pp x0 x2 * hh x3 x1)))
      [s] (getRange ns k) (getRange ns l) (getRange ns i) (getRange ns j) (fun _ x0 x1 x2 x3 => x * (pp x2 x0 * hh x1 x3)))
      [s] (getRange ns i) (getRange ns l) (getRange ns k) (getRange ns j) (fun _ x0 x1 x2 x3 => -(x * (pp x0 x2 * hh x1 x3))))
      [s] (getRange ns k) (getRange ns j) (getRange ns i) (getRange ns l) (fun _ x0 x1 x2 x3 => -(x * (pp x2 x0 * hh x3 x1)))) =
      if i = k ∧ j = l then B4 ns Gs i j k l (fun x0 x1 x2 x3 => x * (pp x0 x2 * hh x3 x1))
      else if i = k ∨ j = l then 2 * B4 ns Gs i j k l (fun x0 x1 x2 x3 => x * (pp x0 x2 * hh x3 x1))
      else 2 * B4 ns Gs i j k l (fun x0 x1 x2 x3 => x * (pp x0 x2 * hh x3 x1)) -
        2 * B4 ns (exch Gs) i j k l (fun x0 x1 x2 x3 => x * (pp x0 x2 * hh x3 x1)) := by
  have h4 : s < 4 := by omega
  have hg : gg Gs Go s = Gs := by rcases h3 with rfl | rfl <;> rfl
  have hsw := B4_sw hs ns i j k l (fun x0 x1 x2 x3 => x * (pp x0 x2 * hh x3 x1))
  by_cases h1 : i = k
  · subst h1
    have hp := hp rfl
    by_cases h2 : j = l
    · subst h2
      have hq := hq rfl
      rw [if_pos ⟨rfl, rfl⟩, put4_noop ns _ _ i j i j, put4_noop ns _ _ i j i j, put4_noop ns _ _ i j i j,
        L2_put1 _ _ _ _ _ _ _ _ h4 hi hj hi hj _ (zr_zero ns _ _ _ _ _), L2_zero, hg, zero_add]
      all_goals
        intro st hst a b c e ha hb hc he
        rw [put4_in _ _ _ _ _ _ _ _ _ _ _ _ _ hst ha hb hc he]
        have hA := hp a c ha hc
        have hB := hq b e hb he
        simp only [hA, hB]
        ring
    · rw [if_neg (fun h => h2 h.2), if_pos (Or.inl rfl), put4_noop ns _ _ i j i l, put4_noop ns _ _ i l i j,
        L2_put1 _ _ _ _ _ _ _ _ h4 hi hl hi hj _ (zr_put (zr_zero ns _ _ _ _ _) _ _ _ _ _ _ (by
          rintro ⟨_, _, h, _⟩; exact h2 h.symm)),
        L2_put1 _ _ _ _ _ _ _ _ h4 hi hj hi hl _ (zr_zero ns _ _ _ _ _), L2_zero, hg, hsw]
      · ring
      · intro st hst a b c e ha hb hc he
        rw [put4_in _ _ _ _ _ _ _ _ _ _ _ _ _ hst ha hb hc he, hp c a hc ha]; ring
      · intro st hst a b c e ha hb hc he
        rw [put4_out _ _ _ _ _ _ _ _ _ _ _ _ _ _ _ _ _ (by rintro ⟨_, _, h, _⟩; exact h2 h) ha hb hc he,
          put4_out _ _ _ _ _ _ _ _ _ _ _ _ _ _ _ _ _ (by rintro ⟨_, _, h, _⟩; exact h2 h) ha hb hc he,
          put4_in _ _ _ _ _ _ _ _ _ _ _ _ _ hst ha hb hc he, hp a c ha hc]; ring
  · rw [if_neg (fun h => h1 h.1)]
    by_cases h2 : j = l
    · subst h2
      have hq := hq rfl
      rw [if_pos (Or.inr rfl), put4_noop ns _ _ k j i j, put4_noop ns _ _ i j k j,
        L2_put1 _ _ _ _ _ _ _ _ h4 hk hj hi hj _ (zr_put (zr_zero ns _ _ _ _ _) _ _ _ _ _ _ (by
          rintro ⟨_, h, _⟩; exact h1 h.symm)),
        L2_put1 _ _ _ _ _ _ _ _ h4 hi hj hk hj _ (zr_zero ns _ _ _ _ _), L2_zero, hg, hsw]
      · ring
      · intro st hst a b c e ha hb hc he
        rw [put4_out _ _ _ _ _ _ _ _ _ _ _ _ _ _ _ _ _ (by rintro ⟨_, h, _⟩; exact h1 h) ha hb hc he,
          put4_in _ _ _ _ _ _ _ _ _ _ _ _ _ hst ha hb hc he, hq b e hb he]; ring
      · intro st hst a b c e ha hb hc he
        rw [put4_out _ _ _ _ _ _ _ _ _ _ _ _ _ _ _ _ _ (by rintro ⟨_, h, _⟩; exact h1 h.symm) ha hb hc he,
          put4_in _ _ _ _ _ _ _ _ _ _ _ _ _ hst ha hb hc he, hq b e hb he]; ring
    · have h1' : ¬ k = i := fun h => h1 h.symm
      have h2' : ¬ l = j := fun h => h2 h.symm
      rw [if_neg (fun h => h.elim h1 h2),
        L2_put1 _ _ _ _ _ _ _ _ h4 hk hj hi hl _ (by
          refine zr_put (zr_put (zr_put (zr_zero ns _ k j i l) _ _ _ _ _ _ ?_) _ _ _ _ _ _ ?_) _ _ _ _ _ _ ?_ <;> simp [h1', h2, h1, h2']),
        L2_put1 _ _ _ _ _ _ _ _ h4 hi hl hk hj _ (by
          refine zr_put (zr_put (zr_zero ns _ i l k j) _ _ _ _ _ _ ?_) _ _ _ _ _ _ ?_ <;> simp [h1', h2, h1, h2']),
        L2_put1 _ _ _ _ _ _ _ _ h4 hk hl hi hj _ (by
          refine zr_put (zr_zero ns _ k l i j) _ _ _ _ _ _ ?_; simp [h1']),
        L2_put1 _ _ _ _ _ _ _ _ h4 hi hj hk hl _ (zr_zero ns _ _ _ _ _), L2_zero, hg, hsw,
        B4_ex1n Gs ns i j k l (fun x0 x1 x2 x3 => x * (pp x0 x2 * hh x3 x1)),
        B4_ex2n hs ns i j k l (fun x0 x1 x2 x3 => x * (pp x0 x2 * hh x3 x1))]
      ring

end

end Verif.Lstdm
