import Verif.Lemmas.HamRows2
/-!
# Lemmas: rows of `HamS2Ovlp` with two electron hops
-/
namespace Verif.Lstdm
open Verif.Spec.Tdm Verif.Spec.Lstdm Verif.Spec.Fockspace Verif.Tdm Verif.Signs

variable {K : Type} [Field K] [DecidableEq K] {L : Lstdm K} {v : Nat → Nat → Vec K} {H : Ham K} (hD : Describes L v) (hH : H.Sym) (h2 : (2 : K) ≠ 0)
  (bra ket : Nat)

theorem ppOf_some (i j k l m s t : Nat) (pp : Nat → Nat → K) (fp : Int) (h : L.ppOf bra ket i j k l m s t = some (pp, fp)) :
    L.facPp bra i j k l = some fp ∧
      pp = if i = k then (L.ints i).get1Pp bra ket m else fun x y => (L.ints i).get1P bra ket s x * (L.ints k).get1P bra ket t y := by
  unfold Lstdm.ppOf at h
  unfold Lstdm.facPp
  by_cases hik : i = k
  · rw [if_pos hik] at h
    rw [if_neg (by simpa using hik), if_pos hik]
    by_cases hm : m ≠ 1
    · rw [if_pos hm] at h
      cases e : Lstdm.assertAnti (L.nlas.getD i 0) ((L.ints i).get1Pp bra ket m) with
      | none => rw [e] at h; simp at h
      | some u => rw [e] at h; simp at h; exact ⟨congrArg some h.2, h.1.symm⟩
    · rw [if_neg hm] at h
      simp at h; exact ⟨congrArg some h.2, h.1.symm⟩
  · rw [if_neg hik] at h
    rw [if_pos hik, if_neg hik]
    cases e1 : fermionDesShuffle (L.nelecF bra) [i, j, k, l] i with
    | none => rw [e1] at h; simp at h
    | some f1 =>
    cases e2 : fermionDesShuffle (L.nelecF bra) [i, j, k, l] k with
    | none => rw [e1, e2] at h; simp at h
    | some f2 =>
    rw [e1, e2] at h
    simp only [Option.bind_eq_bind, Option.bind_some, Option.pure_def, Option.some.injEq, Prod.mk.injEq] at h ⊢
    exact ⟨h.2, h.1.symm⟩

theorem hhOf_some (i j k l m s t : Nat) (hh : Nat → Nat → K) (fh : Int) (h : L.hhOf bra ket i j k l m s t = some (hh, fh)) :
    L.facHh ket i j k l = some fh ∧
      hh = if j = l then (L.ints j).get1Hh bra ket m else fun x y => (L.ints l).get1H bra ket t x * (L.ints j).get1H bra ket s y := by
  unfold Lstdm.hhOf at h
  unfold Lstdm.facHh
  by_cases hjl : j = l
  · rw [if_pos hjl] at h
    rw [if_neg (by simpa using hjl), if_pos hjl]
    by_cases hm : m ≠ 1
    · rw [if_pos hm] at h
      cases e : Lstdm.assertAnti (L.nlas.getD j 0) ((L.ints j).get1Hh bra ket m) with
      | none => rw [e] at h; simp at h
      | some u => rw [e] at h; simp at h; exact ⟨congrArg some h.2, h.1.symm⟩
    · rw [if_neg hm] at h
      simp at h; exact ⟨congrArg some h.2, h.1.symm⟩
  · rw [if_neg hjl] at h
    rw [if_pos hjl, if_neg hjl]
    cases e1 : fermionDesShuffle (L.nelecF ket) [i, j, k, l] j with
    | none => rw [e1] at h; simp at h
    | some f1 =>
    cases e2 : fermionDesShuffle (L.nelecF ket) [i, j, k, l] l with
    | none => rw [e1, e2] at h; simp at h
    | some f2 =>
    rw [e1, e2] at h
    simp only [Option.bind_eq_bind, Option.bind_some, Option.pure_def, Option.some.injEq, Prod.mk.injEq] at h ⊢
    exact ⟨h.2, h.1.symm⟩

omit [DecidableEq K] in
theorem contract_eq (i j k l m s t : Nat) (pp hh : Nat → Nat → K)
    (hp : pp = if i = k then (L.ints i).get1Pp bra ket m else fun x y => (L.ints i).get1P bra ket s x * (L.ints k).get1P bra ket t y)
    (hq : hh = if j = l then (L.ints j).get1Hh bra ket m else fun x y => (L.ints l).get1H bra ket t x * (L.ints j).get1H bra ket s y)
    (h : Nat → Nat → Nat → Nat → K) : L.contract2c bra ket i j k l m s t h =
      S4 (L.no l) (L.no j) (L.no i) (L.no k) (fun z w x y => hh z w * (pp x y * h z w x y)) := by
  unfold Lstdm.contract2c S4
  dsimp only
  by_cases hik : i = k
  · rw [if_pos hik] at hp
    by_cases hjl : j = l
    · rw [if_pos hjl] at hq
      subst hik hjl
      simp only [if_true, Finset.mul_sum, hp, hq]
    · rw [if_neg hjl] at hq
      subst hik
      simp only [if_true, if_neg hjl, Finset.mul_sum, hp, hq, mul_assoc]
  · rw [if_neg hik] at hp
    by_cases hjl : j = l
    · rw [if_pos hjl] at hq
      subst hjl
      simp only [if_true, if_neg hik, Finset.mul_sum, hp, hq, mul_assoc]
    · rw [if_neg hjl] at hq
      simp only [if_neg hik, if_neg hjl, Finset.mul_sum, hp, hq, mul_assoc]

set_option maxHeartbeats 1000000 in
include hD hH h2 in
theorem rh_c2 (i j k l : Nat) (s1 t1 : Bool) (hst : s1 = true → t1 = true) (hi : i < L.nlas.length) (hj : j < L.nlas.length)
    (hk : k < L.nlas.length) (hl : l < L.nlas.length) (hij : i ≠ j) (hil : i ≠ l) (hkj : k ≠ j) (hkl : k ≠ l)
    (hm : ∀ g < L.nlas.length, cz L bra g = mv i j s1 (mv k l t1 (cz L ket)) g) :
    RowHam L H bra ket (.c2 i j k l (ix s1 + ix t1)) := by
  intro d hd
  have hci : i = k → ∀ σ, cz L ket i σ + (if σ = s1 then 1 else 0) + (if σ = t1 then 1 else 0) = cz L bra i σ := by
    intro h σ; subst h; rw [hm i hi]; simp [mv, hij, hil]; ring
  have hcj : j = l → ∀ σ, cz L bra j σ + (if σ = s1 then 1 else 0) + (if σ = t1 then 1 else 0) = cz L ket j σ := by
    intro h σ; subst h; rw [hm j hj]; simp [mv, Ne.symm hij, Ne.symm hkj]
  have hgp : i = k → s1 = t1 → ∀ a b, a < L.nlas.getD i 0 → b < L.nlas.getD i 0 →
      (L.ints i).get1Pp bra ket (ix s1 + ix t1) b a = -(L.ints i).get1Pp bra ket (ix s1 + ix t1) a b := by
    intro h e a b ha hb
    rw [get1Pp_eq hD bra ket i hi s1 t1 hst b a (hci h) hb ha, get1Pp_eq hD bra ket i hi s1 t1 hst a b (hci h) ha hb, e,
      ann_comm _ t1 t1 a b ha hb, ovl_neg_left, neg_neg]
  have hgh : j = l → s1 = t1 → ∀ a b, a < L.nlas.getD j 0 → b < L.nlas.getD j 0 →
      (L.ints j).get1Hh bra ket (ix s1 + ix t1) b a = -(L.ints j).get1Hh bra ket (ix s1 + ix t1) a b := by
    intro h e a b ha hb
    rw [get1Hh_eq hD bra ket j hj s1 t1 hst b a (hcj h) hb ha, get1Hh_eq hD bra ket j hj s1 t1 hst a b (hcj h) ha hb, e,
      ann_comm _ t1 t1 b a hb ha, ovl_neg_right, neg_neg]
  have e11 : [0, 1, 3].getD (ix s1 + ix t1) 0 / 2 = ix s1 := by revert hst; cases s1 <;> cases t1 <;> decide
  have e12 : [0, 1, 3].getD (ix s1 + ix t1) 0 % 2 = ix t1 := by revert hst; cases s1 <;> cases t1 <;> decide
  unfold Lstdm.crunch Lstdm.crunch2c at hd
  unfold Lstdm.hamRow Lstdm.ham2c
  dsimp only at hd ⊢
  rw [e11, e12] at hd ⊢
  cases e1 : L.ppOf bra ket i j k l (ix s1 + ix t1) (ix s1) (ix t1) with
  | none => rw [e1] at hd; simp at hd
  | some P =>
  cases e2 : L.hhOf bra ket i j k l (ix s1 + ix t1) (ix s1) (ix t1) with
  | none => rw [e1, e2] at hd; simp at hd
  | some Q =>
  obtain ⟨pp, fp⟩ := P
  obtain ⟨hh, fh⟩ := Q
  obtain ⟨ep, hp⟩ := ppOf_some bra ket i j k l _ _ _ pp fp e1
  obtain ⟨eh, hq⟩ := hhOf_some bra ket i j k l _ _ _ hh fh e2
  rw [e1, e2] at hd
  rw [ep, eh]
  simp only [Option.bind_eq_bind, Option.bind_some, Option.pure_def] at hd ⊢
  simp only [contract_eq bra ket i j k l (ix s1 + ix t1) (ix s1) (ix t1) pp hh hp hq]
  have hgp' : i = k → s1 = t1 → ∀ a b, a < L.nlas.getD i 0 → b < L.nlas.getD i 0 → pp b a = -pp a b := by
    intro h; rw [hp, if_pos h]; exact hgp h
  have hgh' : j = l → s1 = t1 → ∀ a b, a < L.nlas.getD j 0 → b < L.nlas.getD j 0 → hh b a = -hh a b := by
    intro h; rw [hq, if_pos h]; exact hgh h
  have hJ : S4 (L.no l) (L.no j) (L.no i) (L.no k) (fun z w x y => hh z w * (pp x y * H.four L.nlas l k j i z y w x)) =
      B4 L.nlas H.h2 i j k l (fun x0 x1 x2 x3 => pp x0 x2 * hh x3 x1) := by
    rw [S4_12, S4_23, S4_12, S4_34]
    refine S4_congr fun a b c e _ _ _ _ => ?_
    rw [four_eq, hH.two, hH.swap]; ring
  have hK : S4 (L.no l) (L.no j) (L.no i) (L.no k) (fun z w x y => hh z w * (pp x y * H.four L.nlas l i j k z x w y)) =
      B4 L.nlas (exch H.h2) i j k l (fun x0 x1 x2 x3 => pp x0 x2 * hh x3 x1) := by
    rw [S4_12, S4_23, S4_12, S4_34]
    refine S4_congr fun a b c e _ _ _ _ => ?_
    rw [four_eq, hH.two]
    unfold exch
    ring
  have hS : S4 (L.no l) (L.no j) (L.no i) (L.no k) (fun z w x y => hh z w * (pp x y * (H.four L.nlas l k j i z y w x +
      H.four L.nlas l i j k z x w y))) = B4 L.nlas H.h2 i j k l (fun x0 x1 x2 x3 => pp x0 x2 * hh x3 x1) +
      B4 L.nlas (exch H.h2) i j k l (fun x0 x1 x2 x3 => pp x0 x2 * hh x3 x1) := by
    rw [← hJ, ← hK, ← S4_add]
    exact S4_congr fun _ _ _ _ _ _ _ _ => by ring
  have hT : S4 (L.no l) (L.no j) (L.no i) (L.no k) (fun z w x y => hh z w * (pp x y * (H.four L.nlas l k j i z y w x -
      H.four L.nlas l i j k z x w y))) = B4 L.nlas H.h2 i j k l (fun x0 x1 x2 x3 => pp x0 x2 * hh x3 x1) -
      B4 L.nlas (exch H.h2) i j k l (fun x0 x1 x2 x3 => pp x0 x2 * hh x3 x1) := by
    rw [← hJ, ← hK, ← S4_sub]
    exact S4_congr fun _ _ _ _ _ _ _ _ => by ring
  rw [hS, hT, hJ]
  rw [mul_comm fh fp]
  generalize ((fp * fh : Int) : K) = fac at hd ⊢
  have hfac : ∀ g : Nat → Nat → Nat → Nat → K, B4 L.nlas g i j k l (fun x0 x1 x2 x3 => fac * (pp x0 x2 * hh x3 x1)) =
      fac * B4 L.nlas g i j k l (fun x0 x1 x2 x3 => pp x0 x2 * hh x3 x1) := by
    intro g
    unfold B4; rw [← S4_mul]; exact S4_congr fun _ _ _ _ _ _ _ _ => by ring
  have e0 := mul_one_div_cancel h2
  have zs : ∀ f, B4 L.nlas (Ss (K := K)) i j k l f = 0 := fun f => Ss_zero _ _ _ _ _ _ (fun h => hij h.1)
  have zo : ∀ f, B4 L.nlas (So (K := K)) i j k l f = 0 := fun f => So_zero _ _ _ _ _ _ (fun h => hij h.1) (fun h => hil h.1)
  have zx : ∀ f, B4 L.nlas (exch (Ss (K := K))) i j k l f = 0 := fun f => exSs_zero _ _ _ _ _ _ (fun h => hil h.1)
  by_cases hs : s1 = t1
  · have hix : ix s1 = ix t1 := by rw [hs]
    have hc1 : [0, 1, 3].getD (ix s1 + ix t1) 0 = [0, 2, 3].getD (ix s1 + ix t1) 0 := by
      revert hs; cases s1 <;> cases t1 <;> decide
    have h03 : [0, 1, 3].getD (ix s1 + ix t1) 0 = 0 ∨ [0, 1, 3].getD (ix s1 + ix t1) 0 = 3 := by
      revert hs; cases s1 <;> cases t1 <;> decide
    rw [if_pos hc1, ← hc1] at hd
    obtain rfl := Option.some.inj hd
    rw [if_neg (fun h => h.1 hix)]
    generalize [0, 1, 3].getD (ix s1 + ix t1) 0 = s at h03
    have hX := L2_2cS L.nlas (sw_GH hH) (sw_GH hH) s h03 i j k l hi hj hk hl pp hh fac (fun h => hgp' h hs) (fun h => hgh' h hs)
    have hY := L2_2cS L.nlas (sw_Ss (K := K)) sw_So s h03 i j k l hi hj hk hl pp hh fac (fun h => hgp' h hs) (fun h => hgh' h hs)
    have hLs : lamS L.nlas.sum (zero1, put4 (put4 (put4 (put4 zero2 [s] (getRange L.nlas i) (getRange L.nlas j) (getRange L.nlas k)
      (getRange L.nlas l) (fun _ x0 x1 x2 x3 => fac * (pp x0 x2 * hh x3 x1))) [s] (getRange L.nlas k) (getRange L.nlas l)
      (getRange L.nlas i) (getRange L.nlas j) (fun _ x0 x1 x2 x3 => fac * (pp x2 x0 * hh x1 x3))) [s] (getRange L.nlas i)
      (getRange L.nlas l) (getRange L.nlas k) (getRange L.nlas j) (fun _ x0 x1 x2 x3 => -(fac * (pp x0 x2 * hh x1 x3)))) [s]
      (getRange L.nlas k) (getRange L.nlas j) (getRange L.nlas i) (getRange L.nlas l)
      (fun _ x0 x1 x2 x3 => -(fac * (pp x2 x0 * hh x3 x1)))) = 0 := by
      unfold lamS
      dsimp only
      rw [L1_zero, zero_add]
      refine hY.trans ?_
      simp only [zs, zx]
      simp
    have hLh : ∀ D, lamH L.nlas.sum H (zero1, D) = L2 L.nlas.sum (gg (GH H) (GH H)) D := by
      intro D
      unfold lamH
      dsimp only
      rw [L1_zero, zero_add]
    have hLh := (hLh _).trans hX
    have hPr : ((i, j, ix s1) = (k, l, ix t1)) ↔ (i = k ∧ j = l) := by
      simp only [Prod.mk.injEq]; exact ⟨fun h => ⟨h.1, h.2.1⟩, fun h => ⟨h.1, h.2, hix⟩⟩
    have hG := B4_GH H L.nlas h2 i j k l (fun x0 x1 x2 x3 => pp x0 x2 * hh x3 x1)
    have hGx := B4_exGH H L.nlas h2 i j k l (fun x0 x1 x2 x3 => pp x0 x2 * hh x3 x1)
    by_cases hd1 : i = k ∧ j = l
    · rw [if_neg (fun h => h.2.1 hd1.1), if_pos (hPr.mpr hd1)]
      refine ⟨none, congrArg some (Prod.ext ?_ rfl), hLs.symm⟩
      refine Eq.trans ?_ hLh.symm
      rw [if_pos hd1, hfac, ← hG]
      dsimp only
      linear_combination (B4 L.nlas (GH H) i j k l (fun x0 x1 x2 x3 => pp x0 x2 * hh x3 x1) * fac) * e0
    · rw [if_neg (fun h => hd1 (hPr.mp h))]
      by_cases hd2 : i = k ∨ j = l
      · rw [if_neg (fun h => by rcases hd2 with e | e; exact h.2.1 e; exact h.2.2 e)]
        refine ⟨none, congrArg some (Prod.ext ?_ rfl), hLs.symm⟩
        refine Eq.trans ?_ hLh.symm
        rw [if_neg hd1, if_pos hd2, hfac, ← hG]
        dsimp only
        ring
      · rw [if_pos ⟨hix, fun h => hd2 (Or.inl h), fun h => hd2 (Or.inr h)⟩]
        refine ⟨none, congrArg some (Prod.ext ?_ rfl), hLs.symm⟩
        refine Eq.trans ?_ hLh.symm
        rw [if_neg hd1, if_neg hd2, hfac, hfac, ← hG, ← hGx]
        dsimp only
        ring
  · have hix : ix s1 ≠ ix t1 := by revert hs; cases s1 <;> cases t1 <;> decide
    have hsf : s1 = false := by revert hs hst; cases s1 <;> cases t1 <;> decide
    have htf : t1 = true := by revert hs hst; cases s1 <;> cases t1 <;> decide
    subst hsf htf
    rw [if_neg (by decide)] at hd
    obtain rfl := Option.some.inj hd
    have hPr : ¬((i, j, ix false) = (k, l, ix true)) := by intro h; simp only [Prod.mk.injEq] at h; exact hix h.2.2
    rw [if_neg hPr]
    have hX := L2_2cO L.nlas (sw_GH hH) (sw_GH hH) i j k l hi hj hk hl (fun x0 x1 x2 x3 => fac * (pp x0 x2 * hh x3 x1))
    have hY := L2_2cO L.nlas (sw_Ss (K := K)) sw_So i j k l hi hj hk hl (fun x0 x1 x2 x3 => fac * (pp x0 x2 * hh x3 x1))
    have hLs : lamS L.nlas.sum (zero1, put4 (put4 zero2 [1] (getRange L.nlas i) (getRange L.nlas j) (getRange L.nlas k)
      (getRange L.nlas l) (fun _ x0 x1 x2 x3 => fac * (pp x0 x2 * hh x3 x1))) [2] (getRange L.nlas k) (getRange L.nlas l)
      (getRange L.nlas i) (getRange L.nlas j) (fun _ x0 x1 x2 x3 => fac * (pp x2 x0 * hh x1 x3))) = 0 := by
      unfold lamS
      dsimp only
      rw [L1_zero, zero_add]
      refine hY.trans ?_
      rw [zo, mul_zero]
    have hLh : lamH L.nlas.sum H (zero1, put4 (put4 zero2 [1] (getRange L.nlas i) (getRange L.nlas j) (getRange L.nlas k)
      (getRange L.nlas l) (fun _ x0 x1 x2 x3 => fac * (pp x0 x2 * hh x3 x1))) [2] (getRange L.nlas k) (getRange L.nlas l)
      (getRange L.nlas i) (getRange L.nlas j) (fun _ x0 x1 x2 x3 => fac * (pp x2 x0 * hh x1 x3))) =
      fac * B4 L.nlas H.h2 i j k l (fun x0 x1 x2 x3 => pp x0 x2 * hh x3 x1) := by
      unfold lamH
      dsimp only
      rw [L1_zero, zero_add]
      refine hX.trans ?_
      rw [B4_GH H _ h2, hfac]
    by_cases hd2 : i = k ∨ j = l
    · rw [if_pos ⟨hix, hd2⟩]
      refine ⟨none, congrArg some (Prod.ext ?_ rfl), hLs.symm⟩
      refine Eq.trans ?_ hLh.symm
      dsimp only
      linear_combination (B4 L.nlas H.h2 i j k l (fun x0 x1 x2 x3 => pp x0 x2 * hh x3 x1) * fac) * e0
    · rw [if_neg (fun h => hd2 h.2), if_neg (fun h => hix h.1)]
      refine ⟨none, congrArg some (Prod.ext ?_ rfl), hLs.symm⟩
      refine Eq.trans ?_ hLh.symm
      dsimp only
      ring

end Verif.Lstdm
