import Verif.Lemmas.LstdmRows
/-!
# Lemmas: each row of `LSTDM` gives exact elements
-/
namespace Verif.Lstdm
open Verif.Spec.Tdm Verif.Spec.Lstdm Verif.Spec.Fockspace Verif.Tdm Verif.Signs

variable {K : Type} [CommRing K] [DecidableEq K]

/-- The row is processed without exception, and its contribution is the exact matrices restricted to some blocks. -/
def RowOk (L : Lstdm K) (v : Nat → Nat → Vec K) (bra ket : Nat) (row : Lstdm.Row) (pat1 : Bool → Nat → Nat → Prop)
    (pat2 : Bool → Bool → Nat → Nat → Nat → Nat → Prop) : Prop :=
  ∃ d1 d2 W, L.crunch bra ket row = some (d1, d2) ∧ L.ovlpFac bra ket row.inv = some W ∧
    Good1 L.nlas W (tdm1 L.nlas.sum (state L v bra) (state L v ket)) pat1 d1 ∧
    Good2 L.nlas W (tdm2 L.nlas.sum (state L v bra) (state L v ket)) pat2 d2

omit [DecidableEq K] in
theorem phD_hop (L : Lstdm K) (bra ket : Nat) (inv : List Nat) (hinv : ∀ f ∈ inv, f < L.nlas.length) (i j : Nat) (s : Bool)
    (hi : i ∈ inv) (hj : j ∈ inv) (hm : ∀ g < L.nlas.length, cz L bra g = mv i j s (cz L ket) g) (f : Nat) :
    phD L.nlas.length (invB inv) f (nn2 (cz L bra)) = phD L.nlas.length (invB inv) f (nn2 (cz L ket)) +
      (if f < i then 1 else 0) + if f < j then 1 else 0 := by
  rw [phD_congr _ _ _ _ (nn2 (mv i j s (cz L ket))) (fun g hg => nn2_congr _ _ g (hm g hg)),
    phD_mv _ _ _ _ _ _ _ (hinv i hi) (hinv j hj) (by simpa [invB] using hi) (by simpa [invB] using hj)]

omit [DecidableEq K] in
theorem phD_hop2 (L : Lstdm K) (bra ket : Nat) (inv : List Nat) (hinv : ∀ f ∈ inv, f < L.nlas.length) (i j k l : Nat) (s t : Bool)
    (hi : i ∈ inv) (hj : j ∈ inv) (hk : k ∈ inv) (hl : l ∈ inv)
    (hm : ∀ g < L.nlas.length, cz L bra g = mv i j s (mv k l t (cz L ket)) g) (f : Nat) :
    phD L.nlas.length (invB inv) f (nn2 (cz L bra)) = phD L.nlas.length (invB inv) f (nn2 (cz L ket)) +
      (if f < k then 1 else 0) + (if f < l then 1 else 0) + (if f < i then 1 else 0) + if f < j then 1 else 0 := by
  rw [phD_congr _ _ _ _ (nn2 (mv i j s (mv k l t (cz L ket)))) (fun g hg => nn2_congr _ _ g (hm g hg)),
    phD_mv _ _ _ _ _ _ _ (hinv i hi) (hinv j hj) (by simpa [invB] using hi) (by simpa [invB] using hj),
    phD_mv _ _ _ _ _ _ _ (hinv k hk) (hinv l hl) (by simpa [invB] using hk) (by simpa [invB] using hl)]

section
variable {L : Lstdm K} {v : Nat → Nat → Vec K} (hD : Describes L v) (h8 : L.nlas.length ≤ 8) (bra ket : Nat)
include hD h8

theorem row_1d (i : Nat) (hi : i < L.nlas.length) (hm : ∀ g < L.nlas.length, cz L bra g = cz L ket g) :
    RowOk L v bra ket (.d1 i) (fun _ a b => a = i ∧ b = i) (fun _ _ a b c e => a = i ∧ b = i ∧ c = i ∧ e = i) := by
  have hinv : ∀ f ∈ [i], f < L.nlas.length := by simpa using hi
  refine ⟨_, _, _, rfl, ovlpFac_eq hD h8 bra ket [i] (by simp) hinv (fun g hg _ => hm g hg), ?_, ?_⟩
  · have h := good1_put (good1_zero L.nlas (wgt L v bra ket [i]) (tdm1 L.nlas.sum (state L v bra) (state L v ket))) [0, 1] i i
      ((L.ints i).get1Dm1 bra ket) (by
        intro s p q _ hp hq
        rw [tdm1_wgt hD bra ket [i] hinv s i i p q (by simp) (by simp) hp hq (by
          intro g hg; funext σ; unfold decF; rw [hm g hg])]
        rw [show [0, 1].idxOf (ix s) = ix s by cases s <;> rfl, get1Dm1_eq hD bra ket i hi s p q (hm i hi) hp hq,
          phD_congr _ _ _ _ _ (fun g hg => nn2_congr _ _ g (hm g hg)), add_self_two, sg_zero, one_mul,
          List.prod_toFinset _ (by simp)]
        simp [loc1, app])
    intro s fp fq p q hp hq
    rw [h s fp fq p q hp hq]
    have e : ix s ∈ [0, 1] := by cases s <;> decide
    simp [e]
  · have h := good2_put (good2_zero L.nlas (wgt L v bra ket [i]) (tdm2 L.nlas.sum (state L v bra) (state L v ket)))
      [0, 1, 2, 3] i i i i ((L.ints i).get1Dm2 bra ket) (by
        intro s t p q r u _ hp hq hr hu
        rw [tdm2_wgt hD bra ket [i] hinv s t i i i i p q r u (by simp) (by simp) (by simp) (by simp) hp hq hr hu (by
          intro g hg; funext σ; unfold decF; rw [hm g hg])]
        rw [show [0, 1, 2, 3].idxOf (ix2 s t) = ix2 s t by cases s <;> cases t <;> rfl,
          get1Dm2_eq hD bra ket i hi s t p q r u (hm i hi) hp hq hr hu, List.prod_toFinset _ (by simp)]
        unfold dl2
        rw [phD_congr _ _ _ _ _ (fun g hg => nn2_congr _ _ g (hm g hg)), if_neg (by omega), add_self_two,
          sg_zero, one_mul]
        simp [loc2, app])
    refine good2_congr h ?_
    intro s t a b c e
    have e' : ix2 s t ∈ [0, 1, 2, 3] := by cases s <;> cases t <;> decide
    simp [e']

theorem row_2d (i j : Nat) (hi : i < L.nlas.length) (hj : j < L.nlas.length) (hij : i ≠ j)
    (hm : ∀ g < L.nlas.length, cz L bra g = cz L ket g) :
    RowOk L v bra ket (.d2 i j) (fun _ _ _ => False)
      (fun s t a b c e => (a = i ∧ b = i ∧ c = j ∧ e = j) ∨ (a = j ∧ b = j ∧ c = i ∧ e = i) ∨
        (s = t ∧ ((a = i ∧ b = j ∧ c = j ∧ e = i) ∨ (a = j ∧ b = i ∧ c = i ∧ e = j)))) := by
  have hinv : ∀ f ∈ [i, j], f < L.nlas.length := by
    intro f hf; simp at hf; rcases hf with rfl | rfl <;> assumption
  refine ⟨_, _, _, rfl, ovlpFac_eq hD h8 bra ket [i, j] (by simp) hinv (fun g hg _ => hm g hg), good1_zero _ _ _, ?_⟩
  have hX := sym2_tdm2 L.nlas.sum (state L v bra) (state L v ket)
  have hp : ∀ s t p q r u, p < L.nlas.getD i 0 → q < L.nlas.getD i 0 → r < L.nlas.getD j 0 → u < L.nlas.getD j 0 →
      tdm2 L.nlas.sum (state L v bra) (state L v ket) s t (fragStart L.nlas i + p) (fragStart L.nlas i + q)
        (fragStart L.nlas j + r) (fragStart L.nlas j + u) =
      ((L.ints i).get1Dm1 bra ket (ix s) p q * (L.ints j).get1Dm1 bra ket (ix t) r u) * wgt L v bra ket [i, j] := by
    intro s t p q r u hp hq hr hu
    rw [tdm2_wgt hD bra ket [i, j] hinv s t i i j j p q r u (by simp) (by simp) (by simp) (by simp) hp hq hr hu (by
          intro g hg; funext σ; unfold decF; rw [hm g hg])]
    rw [get1Dm1_eq hD bra ket i hi s p q (hm i hi) hp hq, get1Dm1_eq hD bra ket j hj t r u (hm j hj) hr hu,
      List.prod_toFinset _ (by simp [hij])]
    unfold dl2
    rw [phD_congr _ _ i _ _ (fun g hg => nn2_congr _ _ g (hm g hg)), phD_congr _ _ j _ _ (fun g hg => nn2_congr _ _ g (hm g hg)),
      add_self_two, sg_zero, one_mul]
    simp [loc2, app, hij, Ne.symm hij]
  have h1 := good2_put (good2_zero L.nlas (wgt L v bra ket [i, j]) (tdm2 L.nlas.sum (state L v bra) (state L v ket)))
    [0, 1, 2, 3] i i j j (fun st a b c e => (L.ints i).get1Dm1 bra ket (st / 2) a b * (L.ints j).get1Dm1 bra ket (st % 2) c e) (by
      intro s t p q r u _ h1 h2 h3 h4
      rw [hp s t p q r u h1 h2 h3 h4]
      rw [show [0, 1, 2, 3].idxOf (ix2 s t) = ix2 s t by cases s <;> cases t <;> rfl,
        show ix2 s t / 2 = ix s by cases s <;> cases t <;> rfl, show ix2 s t % 2 = ix t by cases s <;> cases t <;> rfl])
  have h2 := good2_put h1 [0, 3] j j i i (fun k x0 x1 x2 x3 => (L.ints i).get1Dm1 bra ket (([0, 3].getD k 0) / 2) x2 x3 *
      (L.ints j).get1Dm1 bra ket (([0, 3].getD k 0) % 2) x0 x1) (by
      intro s t p q r u hs h1 h2 h3 h4
      rw [hX.swap _ _ _ _ _ _ (frag_lt _ _ _ h1) (frag_lt _ _ _ h2) (frag_lt _ _ _ h3) (frag_lt _ _ _ h4), hp t s r u p q h3 h4 h1 h2]
      have : [0, 3].getD ([0, 3].idxOf (ix2 s t)) 0 / 2 = ix t ∧ [0, 3].getD ([0, 3].idxOf (ix2 s t)) 0 % 2 = ix s := by
        revert hs; cases s <;> cases t <;> decide
      rw [this.1, this.2])
  have h3 := good2_put h2 [1, 2] j j i i (fun k x0 x1 x2 x3 => (L.ints i).get1Dm1 bra ket (([2, 1].getD k 0) / 2) x2 x3 *
      (L.ints j).get1Dm1 bra ket (([2, 1].getD k 0) % 2) x0 x1) (by
      intro s t p q r u hs h1 h2 h3 h4
      rw [hX.swap _ _ _ _ _ _ (frag_lt _ _ _ h1) (frag_lt _ _ _ h2) (frag_lt _ _ _ h3) (frag_lt _ _ _ h4), hp t s r u p q h3 h4 h1 h2]
      have : [2, 1].getD ([1, 2].idxOf (ix2 s t)) 0 / 2 = ix t ∧ [2, 1].getD ([1, 2].idxOf (ix2 s t)) 0 % 2 = ix s := by
        revert hs; cases s <;> cases t <;> decide
      rw [this.1, this.2])
  have h4 := good2_put h3 [0, 3] i j j i (fun k x0 x1 x2 x3 => -((L.ints i).get1Dm1 bra ket (([0, 3].getD k 0) / 2) x0 x3 *
      (L.ints j).get1Dm1 bra ket (([0, 3].getD k 0) % 2) x2 x1)) (by
      intro s t p q r u hs h1 h2 h3 h4
      have : [0, 3].getD ([0, 3].idxOf (ix2 s t)) 0 / 2 = ix s ∧ [0, 3].getD ([0, 3].idxOf (ix2 s t)) 0 % 2 = ix s ∧ t = s := by
        revert hs; cases s <;> cases t <;> decide
      rw [this.1, this.2.1, this.2.2, hX.exch _ _ _ _ _ (frag_lt _ _ _ h2) (frag_lt _ _ _ h4), hp s s p u r q h1 h4 h3 h2]
      ring)
  have h5 := good2_put h4 [0, 3] j i i j (fun k x0 x1 x2 x3 => -((L.ints i).get1Dm1 bra ket (([0, 3].getD k 0) / 2) x2 x1 *
      (L.ints j).get1Dm1 bra ket (([0, 3].getD k 0) % 2) x0 x3)) (by
      intro s t p q r u hs h1 h2 h3 h4
      have : [0, 3].getD ([0, 3].idxOf (ix2 s t)) 0 / 2 = ix s ∧ [0, 3].getD ([0, 3].idxOf (ix2 s t)) 0 % 2 = ix s ∧ t = s := by
        revert hs; cases s <;> cases t <;> decide
      rw [this.1, this.2.1, this.2.2, hX.swap _ _ _ _ _ _ (frag_lt _ _ _ h1) (frag_lt _ _ _ h2) (frag_lt _ _ _ h3) (frag_lt _ _ _ h4),
        hX.exch _ _ _ _ _ (frag_lt _ _ _ h4) (frag_lt _ _ _ h2), hp s s r q p u h3 h2 h1 h4]
      ring)
  refine good2_congr h5 ?_
  intro s t a b c e
  have e1 : ix2 s t ∈ [0, 3] ↔ s = t := by cases s <;> cases t <;> decide
  have e2 : ix2 s t ∈ [1, 2] ↔ ¬ s = t := by cases s <;> cases t <;> decide
  have e3 : ix2 s t ∈ [0, 1, 2, 3] ↔ True := by cases s <;> cases t <;> decide
  rw [e1, e2, e3]
  generalize (a = j ∧ b = i ∧ c = i ∧ e = j) = A1
  generalize (a = i ∧ b = j ∧ c = j ∧ e = i) = A2
  generalize (a = j ∧ b = j ∧ c = i ∧ e = i) = A3
  generalize (a = i ∧ b = i ∧ c = j ∧ e = j) = A4
  by_cases hst : s = t
  · simp only [hst, true_and, not_true, false_and, or_false, false_or]
    tauto
  · simp only [hst, not_false_eq_true, false_and, or_false, false_or, true_and]
    tauto

theorem row_c1 (i j : Nat) (s1 : Bool) (hi : i < L.nlas.length) (hj : j < L.nlas.length) (hij : i ≠ j)
    (hm : ∀ g < L.nlas.length, cz L bra g = mv i j s1 (cz L ket) g) :
    RowOk L v bra ket (.c1 i j (ix s1)) (fun s a b => s = s1 ∧ a = i ∧ b = j)
      (fun s t a b c e => pat1c s1 i j j s t a b c e ∨ pat1c s1 i j i s t a b c e) := by
  have hinv : ∀ f ∈ [i, j], f < L.nlas.length := by
    intro f hf; simp at hf; rcases hf with rfl | rfl <;> assumption
  have hci : ∀ σ, cz L ket i σ + (if σ = s1 then 1 else 0) = cz L bra i σ := by
    intro σ; rw [hm i hi]; simp [mv, hij]
  have hcj : ∀ σ, cz L bra j σ + (if σ = s1 then 1 else 0) = cz L ket j σ := by
    intro σ; rw [hm j hj]; simp [mv, Ne.symm hij]
  obtain ⟨f1, hf1, ef1⟩ := desShuffle_eq hD h8 bra [i, j] hinv i (by simp)
  obtain ⟨f2, hf2, ef2⟩ := desShuffle_eq hD h8 ket [i, j] hinv j (by simp)
  have hN := phD_hop L bra ket [i, j] hinv i j s1 (by simp) (by simp) hm
  have hspec : ∀ g < L.nlas.length, g ∉ [i, j] → cz L bra g = cz L ket g := by
    intro g hg hn
    simp at hn
    rw [hm g hg]; funext σ; simp [mv, hn.1, hn.2]
  have hX := sym2_tdm2 L.nlas.sum (state L v bra) (state L v ket)
  have h2 : ∀ x : ZMod 2, x + x = 0 := by decide
  refine ⟨_, _, _, by
    unfold Lstdm.crunch Lstdm.crunch1c
    simp only [hf1, hf2, Option.bind_eq_bind, Option.bind_some, Option.pure_def]
    rfl, ovlpFac_eq hD h8 bra ket [i, j] (by simp) hinv hspec, ?_, ?_⟩
  · have h := good1_put (good1_zero L.nlas (wgt L v bra ket [i, j]) (tdm1 L.nlas.sum (state L v bra) (state L v ket))) [ix s1] i j
      (fun _ a b => ((f1 * f2 : Int) : K) * ((L.ints i).get1P bra ket (ix s1) a * (L.ints j).get1H bra ket (ix s1) b)) (by
        intro s p q hs hp hq
        have hs : s = s1 := by simp at hs; exact ix_inj hs
        subst hs
        rw [tdm1_wgt hD bra ket [i, j] hinv s i j p q (by simp) (by simp) hp hq (by
          intro g hg; rw [show decF s i (cz L bra) g = decF s i (mv i j s (cz L ket)) g by unfold decF; rw [hm g hg]]
          funext σ; unfold decF mv; ring)]
        rw [get1P_eq hD bra ket i hi s p hci hp, get1H_eq hD bra ket j hj s q hcj hq, Int.cast_mul, ef1, ef2, ← sg_add,
          List.prod_toFinset _ (by simp [hij])]
        unfold invB
        simp [loc1, app, hij, Ne.symm hij])
    intro s fp fq p q hp hq
    rw [h s fp fq p q hp hq]
    have e : ix s ∈ [ix s1] ↔ s = s1 := by cases s <;> cases s1 <;> decide
    simp only [e, or_false]
    congr
  · refine good2_congr (good_1cTdm2 hX (good_1cTdm2 hX (good2_zero _ _ _) s1 i j i _ ?_) s1 i j j _ ?_) (by
      intro s t a b c e; simp only [or_false])
    · intro t a b c e ha hb hc he
      rw [tdm2_wgt hD bra ket [i, j] hinv s1 t i j i i a b c e (by simp) (by simp) (by simp) (by simp) ha hb hc he (by
          intro g hg; rw [show decF t i (decF s1 i (cz L bra)) g = decF t i (decF s1 i (mv i j s1 (cz L ket))) g by
            unfold decF; rw [hm g hg]]
          funext σ; unfold decF mv; ring)]
      rw [get1Pph_eq hD bra ket i hi s1 t a c e hci ha hc he, get1H_eq hD bra ket j hj s1 b hcj hb, Int.cast_mul, ef1, ef2,
        ← sg_add, List.prod_toFinset _ (by simp [hij])]
      congr 2
      · congr 1
        unfold dl2 invB at *
        rw [hN i]
        have : ¬ i < i := by omega
        rw [if_neg this]
        generalize phD L.nlas.length _ i (nn2 (cz L ket)) = x
        generalize phD L.nlas.length _ j (nn2 (cz L ket)) = y
        generalize (if i < j then (1 : ZMod 2) else 0) = z
        revert x y z; decide
      · simp [loc2, app, hij, Ne.symm hij]
    · intro t a b c e ha hb hc he
      rw [tdm2_wgt hD bra ket [i, j] hinv s1 t i j j j a b c e (by simp) (by simp) (by simp) (by simp) ha hb hc he (by
          intro g hg; rw [show decF t j (decF s1 i (cz L bra)) g = decF t j (decF s1 i (mv i j s1 (cz L ket))) g by
            unfold decF; rw [hm g hg]]
          funext σ; unfold decF mv; ring)]
      rw [get1P_eq hD bra ket i hi s1 a hci ha, get1Phh_eq hD bra ket j hj s1 t c e b hcj hc he hb, Int.cast_mul, ef1, ef2,
        ← sg_add, List.prod_toFinset _ (by simp [hij])]
      congr 2
      · congr 1
        unfold dl2 invB at *
        rw [hN i, hN j]
        have : ¬ i < i := by omega
        have : ¬ j < j := by omega
        simp only [lt_irrefl, if_false]
        generalize phD L.nlas.length _ i (nn2 (cz L ket)) = x
        generalize phD L.nlas.length _ j (nn2 (cz L ket)) = y
        generalize (if i < j then (1 : ZMod 2) else 0) = z
        generalize (if j < i then (1 : ZMod 2) else 0) = w
        revert x y z w; decide
      · simp [loc2, app, hij, Ne.symm hij]

end

end Verif.Lstdm
