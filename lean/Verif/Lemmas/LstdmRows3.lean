import Verif.Lemmas.LstdmRows2
/-!
# Lemmas: each row of `LSTDM` gives exact elements (rows with two hops)
-/
namespace Verif.Lstdm
open Verif.Spec.Tdm Verif.Spec.Lstdm Verif.Spec.Fockspace Verif.Tdm Verif.Signs

variable {K : Type} [CommRing K] [DecidableEq K]

omit [DecidableEq K] in
theorem sg_one : (sg 1 : K) = -1 := rfl

section
variable {L : Lstdm K} {v : Nat → Nat → Vec K} (hD : Describes L v) (h8 : L.nlas.length ≤ 8) (bra ket : Nat)
include hD h8

theorem row_c1d1 (i j k : Nat) (s1 : Bool) (hi : i < L.nlas.length) (hj : j < L.nlas.length) (hk : k < L.nlas.length)
    (hij : i ≠ j) (hik : i ≠ k) (hjk : j ≠ k) (hm : ∀ g < L.nlas.length, cz L bra g = mv i j s1 (cz L ket) g) :
    RowOk L v bra ket (.c1d1 i j k (ix s1)) (fun _ _ _ => False) (pat1c s1 i j k) := by
  have hinv : ∀ f ∈ [i, j, k], f < L.nlas.length := by
    intro f hf; simp at hf; rcases hf with rfl | rfl | rfl <;> assumption
  have hci : ∀ σ, cz L ket i σ + (if σ = s1 then 1 else 0) = cz L bra i σ := by
    intro σ; rw [hm i hi]; simp [mv, hij]
  have hcj : ∀ σ, cz L bra j σ + (if σ = s1 then 1 else 0) = cz L ket j σ := by
    intro σ; rw [hm j hj]; simp [mv, Ne.symm hij]
  have hck : cz L bra k = cz L ket k := by
    rw [hm k hk]; funext σ; simp [mv, Ne.symm hik, Ne.symm hjk]
  obtain ⟨f1, hf1, ef1⟩ := desShuffle_eq hD h8 bra [i, j, k] hinv i (by simp)
  obtain ⟨f2, hf2, ef2⟩ := desShuffle_eq hD h8 ket [i, j, k] hinv j (by simp)
  have hN := phD_hop L bra ket [i, j, k] hinv i j s1 (by simp) (by simp) hm
  have hspec : ∀ g < L.nlas.length, g ∉ [i, j, k] → cz L bra g = cz L ket g := by
    intro g hg hn
    simp at hn
    rw [hm g hg]; funext σ; simp [mv, hn.1, hn.2]
  have hX := sym2_tdm2 L.nlas.sum (state L v bra) (state L v ket)
  refine ⟨_, _, _, by
    unfold Lstdm.crunch Lstdm.crunch1c1d
    simp only [hf1, hf2, Option.bind_eq_bind, Option.bind_some, Option.pure_def]
    rfl, ovlpFac_eq hD h8 bra ket [i, j, k] (by simp) hinv hspec, good1_zero _ _ _, ?_⟩
  refine good2_congr (good_1cTdm2 hX (good2_zero _ _ _) s1 i j k _ ?_) (by
      intro s t a b c e; simp only [or_false])
  intro t a b c e ha hb hc he
  rw [tdm2_wgt hD bra ket [i, j, k] hinv s1 t i j k k a b c e (by simp) (by simp) (by simp) (by simp) ha hb hc he (by
      intro g hg; rw [show decF t k (decF s1 i (cz L bra)) g = decF t k (decF s1 i (mv i j s1 (cz L ket))) g by
        unfold decF; rw [hm g hg]]
      funext σ; unfold decF mv; ring)]
  rw [get1P_eq hD bra ket i hi s1 a hci ha, get1H_eq hD bra ket j hj s1 b hcj hb, get1Dm1_eq hD bra ket k hk t c e hck hc he,
    Int.cast_mul, ef1, ef2,
    ← sg_add, List.prod_toFinset _ (by simp [hij, hik, hjk])]
  congr 2
  · congr 1
    unfold dl2 invB at *
    rw [hN i, hN k]
    simp only [lt_irrefl, if_false]
    have e1 : (if k < j then (1 : ZMod 2) else 0) = 1 + if j < k then 1 else 0 := by
      rcases lt_or_gt_of_ne hjk with h | h
      · rw [if_neg (by omega), if_pos h]; decide
      · rw [if_pos h, if_neg (by omega)]; decide
    generalize phD L.nlas.length _ i (nn2 (cz L ket)) = x
    generalize phD L.nlas.length _ j (nn2 (cz L ket)) = y
    generalize phD L.nlas.length _ k (nn2 (cz L ket)) = z
    generalize (if k < j then (1 : ZMod 2) else 0) = w
    generalize (if k < i then (1 : ZMod 2) else 0) = w1
    generalize (if i < j then (1 : ZMod 2) else 0) = w2
    have h2 : ∀ x : ZMod 2, x + x = 0 := by decide
    linear_combination h2 z + h2 w + h2 w1
  · simp [loc2, app, hij, Ne.symm hij, hik, hjk, Ne.symm hik, Ne.symm hjk]
    ring

theorem row_s1 (i j : Nat) (hi : i < L.nlas.length) (hj : j < L.nlas.length) (hij : i ≠ j)
    (hm : ∀ g < L.nlas.length, cz L bra g = mv i j false (mv j i true (cz L ket)) g) :
    RowOk L v bra ket (.s1 i j) (fun _ _ _ => False)
      (fun s t a b c e => (s = false ∧ t = true ∧ a = i ∧ b = j ∧ c = j ∧ e = i) ∨
        (s = true ∧ t = false ∧ a = j ∧ b = i ∧ c = i ∧ e = j)) := by
  have hinv : ∀ f ∈ [i, j], f < L.nlas.length := by
    intro f hf; simp at hf; rcases hf with rfl | rfl <;> assumption
  have hci : ∀ σ, cz L bra i σ + (if σ = true then 1 else 0) = cz L ket i σ + (if σ = false then 1 else 0) := by
    intro σ; rw [hm i hi]; simp [mv, hij]; ring
  have hcj : ∀ σ, cz L bra j σ + (if σ = false then 1 else 0) = cz L ket j σ + (if σ = true then 1 else 0) := by
    intro σ; rw [hm j hj]; simp [mv, Ne.symm hij]
  have hN := phD_hop2 L bra ket [i, j] hinv i j j i false true (by simp) (by simp) (by simp) (by simp) hm
  have hspec : ∀ g < L.nlas.length, g ∉ [i, j] → cz L bra g = cz L ket g := by
    intro g hg hn
    simp at hn
    rw [hm g hg]; funext σ; simp [mv, hn.1, hn.2]
  have hX := sym2_tdm2 L.nlas.sum (state L v bra) (state L v ket)
  have hp : ∀ p q r u, p < L.nlas.getD i 0 → q < L.nlas.getD j 0 → r < L.nlas.getD j 0 → u < L.nlas.getD i 0 →
      tdm2 L.nlas.sum (state L v bra) (state L v ket) false true (fragStart L.nlas i + p) (fragStart L.nlas j + q)
        (fragStart L.nlas j + r) (fragStart L.nlas i + u) =
      -((L.ints i).get1Sp bra ket p u * (L.ints j).get1Sm bra ket r q) * wgt L v bra ket [i, j] := by
    intro p q r u hp hq hr hu
    rw [tdm2_wgt hD bra ket [i, j] hinv false true i j j i p q r u (by simp) (by simp) (by simp) (by simp) hp hq hr hu (by
      intro g hg; rw [show decF true j (decF false i (cz L bra)) g =
        decF true j (decF false i (mv i j false (mv j i true (cz L ket)))) g by unfold decF; rw [hm g hg]]
      funext σ; unfold decF mv; ring)]
    rw [get1Sp_eq hD bra ket i hi p u hci hp hu, get1Sm_eq hD bra ket j hj r q hcj hr hq, List.prod_toFinset _ (by simp [hij])]
    have : dl2 L bra ket [i, j] i j j i = 1 := by
      unfold dl2
      rw [hN i, hN j]
      simp only [lt_irrefl, if_false]
      have e1 : (if i < j then (1 : ZMod 2) else 0) = 1 + if j < i then 1 else 0 := by
        rcases lt_or_gt_of_ne hij with h | h
        · rw [if_neg (show ¬ j < i by omega), if_pos h]; decide
        · rw [if_pos h, if_neg (show ¬ i < j by omega)]; decide
      rw [e1]
      generalize phD L.nlas.length _ i (nn2 (cz L ket)) = x
      generalize phD L.nlas.length _ j (nn2 (cz L ket)) = y
      generalize (if j < i then (1 : ZMod 2) else 0) = w
      revert x y w; decide
    rw [this]
    simp [loc2, app, hij, Ne.symm hij, sg_one]
  refine ⟨_, _, _, rfl, ovlpFac_eq hD h8 bra ket [i, j] (by simp) hinv hspec, good1_zero _ _ _, ?_⟩
  have h1 := good2_put (good2_zero L.nlas (wgt L v bra ket [i, j]) (tdm2 L.nlas.sum (state L v bra) (state L v ket)))
    [1] i j j i (fun _ x0 x1 x2 x3 => -((L.ints i).get1Sp bra ket x0 x3 * (L.ints j).get1Sm bra ket x2 x1)) (by
      intro s t p q r u hs h1 h2 h3 h4
      have : s = false ∧ t = true := by revert hs; cases s <;> cases t <;> decide
      rw [this.1, this.2]
      exact hp p q r u h1 h2 h3 h4)
  have h2 := good2_put h1 [2] j i i j (fun _ x0 x1 x2 x3 => -((L.ints i).get1Sp bra ket x2 x1 * (L.ints j).get1Sm bra ket x0 x3)) (by
      intro s t p q r u hs h1 h2 h3 h4
      have : s = true ∧ t = false := by revert hs; cases s <;> cases t <;> decide
      rw [this.1, this.2, hX.swap _ _ _ _ _ _ (frag_lt _ _ _ h1) (frag_lt _ _ _ h2) (frag_lt _ _ _ h3) (frag_lt _ _ _ h4)]
      exact hp r u p q h3 h4 h1 h2)
  refine good2_congr h2 ?_
  intro s t a b c e
  have e1 : ix2 s t ∈ [1] ↔ s = false ∧ t = true := by cases s <;> cases t <;> decide
  have e2 : ix2 s t ∈ [2] ↔ s = true ∧ t = false := by cases s <;> cases t <;> decide
  rw [e1, e2, or_false, or_comm, and_assoc, and_assoc]

theorem row_s1c1 (i j k : Nat) (s1 : Bool) (hi : i < L.nlas.length) (hj : j < L.nlas.length) (hk : k < L.nlas.length)
    (hij : i ≠ j) (hik : i ≠ k) (hjk : j ≠ k)
    (hm : ∀ g < L.nlas.length, cz L bra g = mv i k s1 (mv k j (!s1) (cz L ket)) g) :
    RowOk L v bra ket (.s1c1 i j k (ix s1)) (fun _ _ _ => False)
      (fun s t a b c e => (s = s1 ∧ t = !s1 ∧ a = i ∧ b = k ∧ c = k ∧ e = j) ∨
        (t = s1 ∧ s = !s1 ∧ a = k ∧ b = j ∧ c = i ∧ e = k)) := by
  have hinv : ∀ f ∈ [i, j, k], f < L.nlas.length := by
    intro f hf; simp at hf; rcases hf with rfl | rfl | rfl <;> assumption
  have hci : ∀ σ, cz L ket i σ + (if σ = s1 then 1 else 0) = cz L bra i σ := by
    intro σ; rw [hm i hi]; simp [mv, hij, hik]
  have hcj : ∀ σ, cz L bra j σ + (if σ = !s1 then 1 else 0) = cz L ket j σ := by
    intro σ; rw [hm j hj]; simp [mv, Ne.symm hij, hjk]
  have hck : ∀ σ, cz L bra k σ + (if σ = s1 then 1 else 0) = cz L ket k σ + (if σ = !s1 then 1 else 0) := by
    intro σ; rw [hm k hk]; simp [mv, Ne.symm hik, Ne.symm hjk]
  obtain ⟨f1, hf1, ef1⟩ := desShuffle_eq hD h8 bra [i, j, k] hinv i (by simp)
  obtain ⟨f2, hf2, ef2⟩ := desShuffle_eq hD h8 ket [i, j, k] hinv j (by simp)
  have hN := phD_hop2 L bra ket [i, j, k] hinv i k k j s1 (!s1) (by simp) (by simp) (by simp) (by simp) hm
  have hspec : ∀ g < L.nlas.length, g ∉ [i, j, k] → cz L bra g = cz L ket g := by
    intro g hg hn
    simp at hn
    rw [hm g hg]; funext σ; simp [mv, hn.1, hn.2]
  have hX := sym2_tdm2 L.nlas.sum (state L v bra) (state L v ket)
  have hdk : ∀ x y, x < L.nlas.getD k 0 → y < L.nlas.getD k 0 →
      (if ix s1 = 0 then (L.ints k).get1Sm bra ket else (L.ints k).get1Sp bra ket) x y =
        ovl (L.nlas.getD k 0) (ann (L.nlas.getD k 0) (!s1) x (v k bra)) (ann (L.nlas.getD k 0) s1 y (v k ket)) := by
    intro x y hx hy
    cases s1
    · rw [if_pos (by rfl)]; exact get1Sm_eq hD bra ket k hk x y (by simpa using hck) hx hy
    · rw [if_neg (by decide)]; exact get1Sp_eq hD bra ket k hk x y (by simpa using hck) hx hy
  have hs2 : 1 - ix s1 = ix (!s1) := by cases s1 <;> rfl
  have hp : ∀ p q r u, p < L.nlas.getD i 0 → q < L.nlas.getD k 0 → r < L.nlas.getD k 0 → u < L.nlas.getD j 0 →
      tdm2 L.nlas.sum (state L v bra) (state L v ket) s1 (!s1) (fragStart L.nlas i + p) (fragStart L.nlas k + q)
        (fragStart L.nlas k + r) (fragStart L.nlas j + u) =
      (((-1 * f1 * f2 : Int) : K) * ((L.ints i).get1P bra ket (ix s1) p * (L.ints j).get1H bra ket (1 - ix s1) u *
        (if ix s1 = 0 then (L.ints k).get1Sm bra ket else (L.ints k).get1Sp bra ket) r q)) * wgt L v bra ket [i, j, k] := by
    intro p q r u hp hq hr hu
    rw [tdm2_wgt hD bra ket [i, j, k] hinv s1 (!s1) i k k j p q r u (by simp) (by simp) (by simp) (by simp) hp hq hr hu (by
      intro g hg; rw [show decF (!s1) k (decF s1 i (cz L bra)) g =
        decF (!s1) k (decF s1 i (mv i k s1 (mv k j (!s1) (cz L ket)))) g by unfold decF; rw [hm g hg]]
      funext σ; unfold decF mv; ring)]
    rw [hdk r q hr hq, hs2, get1P_eq hD bra ket i hi s1 p hci hp, get1H_eq hD bra ket j hj (!s1) u hcj hu,
      List.prod_toFinset _ (by simp [hij, hik, hjk]), Int.cast_mul, Int.cast_mul, ef1, ef2]
    have : dl2 L bra ket [i, j, k] i k k j = 1 + phD L.nlas.length (fun f => decide (f ∈ [i, j, k])) i (nn2 (cz L bra)) +
        phD L.nlas.length (fun f => decide (f ∈ [i, j, k])) j (nn2 (cz L ket)) := by
      unfold dl2 invB at *
      rw [hN i, hN k]
      simp only [lt_irrefl, if_false]
      have e1 : (if k < i then (1 : ZMod 2) else 0) = 1 + if i < k then 1 else 0 := by
        rcases lt_or_gt_of_ne hik with h | h
        · rw [if_neg (show ¬ k < i by omega), if_pos h]; decide
        · rw [if_pos h, if_neg (show ¬ i < k by omega)]; decide
      have e2 : (if k < j then (1 : ZMod 2) else 0) = 1 + if j < k then 1 else 0 := by
        rcases lt_or_gt_of_ne hjk with h | h
        · rw [if_neg (show ¬ k < j by omega), if_pos h]; decide
        · rw [if_pos h, if_neg (show ¬ j < k by omega)]; decide
      rw [e1, e2]
      generalize phD L.nlas.length _ i (nn2 (cz L ket)) = x
      generalize phD L.nlas.length _ j (nn2 (cz L ket)) = y
      generalize phD L.nlas.length _ k (nn2 (cz L ket)) = z
      generalize (if i < k then (1 : ZMod 2) else 0) = w
      generalize (if i < j then (1 : ZMod 2) else 0) = w1
      generalize (if j < k then (1 : ZMod 2) else 0) = w2
      have h2 : ∀ x : ZMod 2, x + x = 0 := by decide
      linear_combination h2 z + h2 w + h2 w2 + h2 1
    rw [this, sg_add, sg_add, sg_one]
    simp [loc2, app, hij, Ne.symm hij, hik, hjk, Ne.symm hik, Ne.symm hjk]
    ring
  refine ⟨_, _, _, by
    unfold Lstdm.crunch Lstdm.crunch1s1c
    simp only [hf1, hf2, Option.bind_eq_bind, Option.bind_some, Option.pure_def]
    rfl, ovlpFac_eq hD h8 bra ket [i, j, k] (by simp) hinv hspec, good1_zero _ _ _, ?_⟩
  refine good2_congr (good2_put (good2_put (good2_zero L.nlas (wgt L v bra ket [i, j, k])
    (tdm2 L.nlas.sum (state L v bra) (state L v ket))) [1 + ix s1] i k k j _ ?_) [2 - ix s1] k j i k _ ?_) ?_
  · intro s t p q r u hs h1 h2 h3 h4
    have : s = s1 ∧ t = !s1 := by revert hs; cases s <;> cases t <;> cases s1 <;> decide
    rw [this.1, this.2]
    exact hp p q r u h1 h2 h3 h4
  · intro s t p q r u hs h1 h2 h3 h4
    have : s = !s1 ∧ t = s1 := by revert hs; cases s <;> cases t <;> cases s1 <;> decide
    rw [this.1, this.2, hX.swap _ _ _ _ _ _ (frag_lt _ _ _ h1) (frag_lt _ _ _ h2) (frag_lt _ _ _ h3) (frag_lt _ _ _ h4)]
    exact hp r u p q h3 h4 h1 h2
  · intro s t a b c e
    have e1 : ix2 s t ∈ [1 + ix s1] ↔ s = s1 ∧ t = !s1 := by cases s <;> cases t <;> cases s1 <;> decide
    have e2 : ix2 s t ∈ [2 - ix s1] ↔ t = s1 ∧ s = !s1 := by cases s <;> cases t <;> cases s1 <;> decide
    rw [e1, e2, or_false, or_comm, and_assoc, and_assoc]

omit hD h8 [DecidableEq K] in
theorem dbl_pp (N : Nat) (s : Bool) (x : Nat) (hx : x < N) (φ ψ : Vec K) :
    ovl N (ann N s x (ann N s x φ)) ψ + ovl N (ann N s x (ann N s x φ)) ψ = 0 := by
  have h := congrArg (fun χ => ovl N χ ψ) (ann_comm N s s x x hx hx φ)
  rw [ovl_neg_left] at h
  linear_combination h

omit h8 in
theorem assertAnti_ok (f : Nat) (hf : f < L.nlas.length) (pp : Nat → Nat → K) (h0 : pp 0 0 + pp 0 0 = 0) :
    Lstdm.assertAnti (L.nlas.getD f 0) pp = some () := by
  unfold Lstdm.assertAnti
  rw [if_neg]
  intro h
  have hn : 0 < L.nlas.getD f 0 := hD.pos f hf
  have := List.all_eq_true.mp h 0 (List.mem_range.mpr hn)
  have := List.all_eq_true.mp this 0 (List.mem_range.mpr hn)
  simp at this
  exact this h0

/-- The two creators of a row with two hops. -/
def ppX (L : Lstdm K) (v : Nat → Nat → Vec K) (bra ket i k : Nat) (s t : Bool) (p r : Nat) : K :=
  if i = k then ovl (L.nlas.getD i 0) (ann (L.nlas.getD i 0) t r (ann (L.nlas.getD i 0) s p (v i bra))) (v i ket)
  else ovl (L.nlas.getD i 0) (ann (L.nlas.getD i 0) s p (v i bra)) (v i ket) *
    ovl (L.nlas.getD k 0) (ann (L.nlas.getD k 0) t r (v k bra)) (v k ket)

/-- The two annihilators of a row with two hops. -/
def hhX (L : Lstdm K) (v : Nat → Nat → Vec K) (bra ket j l : Nat) (s t : Bool) (u q : Nat) : K :=
  if j = l then ovl (L.nlas.getD j 0) (v j bra) (ann (L.nlas.getD j 0) t u (ann (L.nlas.getD j 0) s q (v j ket)))
  else ovl (L.nlas.getD l 0) (v l bra) (ann (L.nlas.getD l 0) t u (v l ket)) *
    ovl (L.nlas.getD j 0) (v j bra) (ann (L.nlas.getD j 0) s q (v j ket))

theorem ppOf_eq (i j k l : Nat) (s t : Bool) (hst : s = true → t = true)
    (hinv : ∀ f ∈ [i, j, k, l], f < L.nlas.length)
    (hci : i ≠ k → ∀ σ, cz L ket i σ + (if σ = s then 1 else 0) = cz L bra i σ)
    (hck : i ≠ k → ∀ σ, cz L ket k σ + (if σ = t then 1 else 0) = cz L bra k σ)
    (hcik : i = k → ∀ σ, cz L ket i σ + (if σ = s then 1 else 0) + (if σ = t then 1 else 0) = cz L bra i σ) :
    ∃ pp fp, L.ppOf bra ket i j k l (ix s + ix t) (ix s) (ix t) = some (pp, fp) ∧
      ((fp : Int) : K) = sg (phD L.nlas.length (invB [i, j, k, l]) i (nn2 (cz L bra)) +
        phD L.nlas.length (invB [i, j, k, l]) k (nn2 (cz L bra)) + (if k < i then 1 else 0)) ∧
      ∀ p r, p < L.nlas.getD i 0 → r < L.nlas.getD k 0 → pp p r = ppX L v bra ket i k s t p r := by
  have hi : i < L.nlas.length := hinv i (by simp)
  have hk : k < L.nlas.length := hinv k (by simp)
  unfold Lstdm.ppOf ppX
  by_cases hik : i = k
  · subst hik
    simp only [if_true, Option.bind_eq_bind, Option.pure_def]
    have hget := fun x y hx hy => get1Pp_eq hD bra ket i hi s t hst x y (hcik rfl) hx hy
    refine ⟨(L.ints i).get1Pp bra ket (ix s + ix t), 1, ?_, ?_, hget⟩
    · by_cases hne : ix s + ix t ≠ 1
      · rw [if_pos hne]
        have hts : t = s := by revert hne; cases s <;> cases t <;> decide
        subst hts
        have hn : 0 < L.nlas.getD i 0 := hD.pos i hi
        rw [assertAnti_ok hD i hi]
        · rfl
        · rw [hget 0 0 hn hn]
          exact dbl_pp _ _ _ hn _ _
      · rw [if_neg hne]
    · rw [if_neg (lt_irrefl _), add_zero, add_self_two, sg_zero, Int.cast_one]
  · rw [if_neg hik]
    obtain ⟨f1, hf1, ef1⟩ := desShuffle_eq hD h8 bra [i, j, k, l] hinv i (by simp)
    obtain ⟨f2, hf2, ef2⟩ := desShuffle_eq hD h8 bra [i, j, k, l] hinv k (by simp)
    refine ⟨_, _, by
      simp only [hf1, hf2, Option.bind_eq_bind, Option.bind_some, Option.pure_def]; rfl, ?_, ?_⟩
    · rw [Int.cast_mul, Int.cast_mul, ef1, ef2, sg_add, sg_add]
      unfold invB
      by_cases h : k < i
      · rw [if_pos h, if_pos h, sg_one]; push_cast; ring
      · rw [if_neg h, if_neg h, sg_zero]; push_cast; ring
    · intro p r hp hr
      rw [if_neg hik, get1P_eq hD bra ket i hi s p (hci hik) hp, get1P_eq hD bra ket k hk t r (hck hik) hr]

theorem hhOf_eq (i j k l : Nat) (s t : Bool) (hst : s = true → t = true)
    (hinv : ∀ f ∈ [i, j, k, l], f < L.nlas.length)
    (hcj : j ≠ l → ∀ σ, cz L bra j σ + (if σ = s then 1 else 0) = cz L ket j σ)
    (hcl : j ≠ l → ∀ σ, cz L bra l σ + (if σ = t then 1 else 0) = cz L ket l σ)
    (hcjl : j = l → ∀ σ, cz L bra j σ + (if σ = s then 1 else 0) + (if σ = t then 1 else 0) = cz L ket j σ) :
    ∃ hh fh, L.hhOf bra ket i j k l (ix s + ix t) (ix s) (ix t) = some (hh, fh) ∧
      ((fh : Int) : K) = sg (phD L.nlas.length (invB [i, j, k, l]) j (nn2 (cz L ket)) +
        phD L.nlas.length (invB [i, j, k, l]) l (nn2 (cz L ket)) + (if l < j then 1 else 0)) ∧
      ∀ u q, u < L.nlas.getD l 0 → q < L.nlas.getD j 0 → hh u q = hhX L v bra ket j l s t u q := by
  have hj : j < L.nlas.length := hinv j (by simp)
  have hl : l < L.nlas.length := hinv l (by simp)
  unfold Lstdm.hhOf hhX
  by_cases hjl : j = l
  · subst hjl
    simp only [if_true, Option.bind_eq_bind, Option.pure_def]
    have hget := fun x y hx hy => get1Hh_eq hD bra ket j hj s t hst x y (hcjl rfl) hx hy
    refine ⟨(L.ints j).get1Hh bra ket (ix s + ix t), 1, ?_, ?_, hget⟩
    · by_cases hne : ix s + ix t ≠ 1
      · rw [if_pos hne]
        have hts : t = s := by revert hne; cases s <;> cases t <;> decide
        subst hts
        have hn : 0 < L.nlas.getD j 0 := hD.pos j hj
        rw [assertAnti_ok hD j hj]
        · rfl
        · rw [hget 0 0 hn hn, ovl_comm]
          exact dbl_pp _ _ _ hn _ _
      · rw [if_neg hne]
    · rw [if_neg (lt_irrefl _), add_zero, add_self_two, sg_zero, Int.cast_one]
  · rw [if_neg hjl]
    obtain ⟨f1, hf1, ef1⟩ := desShuffle_eq hD h8 ket [i, j, k, l] hinv j (by simp)
    obtain ⟨f2, hf2, ef2⟩ := desShuffle_eq hD h8 ket [i, j, k, l] hinv l (by simp)
    refine ⟨_, _, by
      simp only [hf1, hf2, Option.bind_eq_bind, Option.bind_some, Option.pure_def]; rfl, ?_, ?_⟩
    · rw [Int.cast_mul, Int.cast_mul, ef1, ef2, sg_add, sg_add]
      unfold invB
      by_cases h : l < j
      · rw [if_pos h, if_pos h, sg_one]; push_cast; ring
      · rw [if_neg h, if_neg h, sg_zero]; push_cast; ring
    · intro u q hu hq
      rw [if_neg hjl, get1H_eq hD bra ket j hj s q (hcj hjl) hq, get1H_eq hD bra ket l hl t u (hcl hjl) hu]

/-- The blocks written by `_crunch_2c_`. -/
def pat2c (s1 t1 : Bool) (i j k l : Nat) (s t : Bool) (a b c e : Nat) : Prop :=
  (s = s1 ∧ t = t1 ∧ a = i ∧ b = j ∧ c = k ∧ e = l) ∨ (s = t1 ∧ t = s1 ∧ a = k ∧ b = l ∧ c = i ∧ e = j) ∨
  (s1 = t1 ∧ s = s1 ∧ t = s1 ∧ ((a = i ∧ b = l ∧ c = k ∧ e = j) ∨ (a = k ∧ b = j ∧ c = i ∧ e = l)))

theorem row_c2 (i j k l : Nat) (s1 t1 : Bool) (hst : s1 = true → t1 = true) (hi : i < L.nlas.length) (hj : j < L.nlas.length)
    (hk : k < L.nlas.length) (hl : l < L.nlas.length) (hij : i ≠ j) (hil : i ≠ l) (hkj : k ≠ j) (hkl : k ≠ l)
    (hm : ∀ g < L.nlas.length, cz L bra g = mv i j s1 (mv k l t1 (cz L ket)) g) :
    RowOk L v bra ket (.c2 i j k l (ix s1 + ix t1)) (fun _ _ _ => False) (pat2c s1 t1 i j k l) := by
  have hinv : ∀ f ∈ [i, j, k, l], f < L.nlas.length := by
    intro f hf; simp at hf; rcases hf with rfl | rfl | rfl | rfl <;> assumption
  obtain ⟨pp, fp, hpp, efp, hppv⟩ := ppOf_eq hD h8 bra ket i j k l s1 t1 hst hinv
    (by intro h σ; rw [hm i hi]; simp [mv, hij, hil, h])
    (by intro h σ; rw [hm k hk]; simp [mv, hkj, hkl, Ne.symm h])
    (by intro h σ; subst h; rw [hm i hi]; simp [mv, hij, hil]; ring)
  obtain ⟨hh, fh, hhh, efh, hhhv⟩ := hhOf_eq hD h8 bra ket i j k l s1 t1 hst hinv
    (by intro h σ; rw [hm j hj]; simp [mv, Ne.symm hij, Ne.symm hkj, h])
    (by intro h σ; rw [hm l hl]; simp [mv, Ne.symm hil, Ne.symm hkl, Ne.symm h])
    (by intro h σ; subst h; rw [hm j hj]; simp [mv, Ne.symm hij, Ne.symm hkj])
  have hspec : ∀ g < L.nlas.length, g ∉ [i, j, k, l] → cz L bra g = cz L ket g := by
    intro g hg hn
    simp at hn
    rw [hm g hg]; funext σ; simp [mv, hn.1, hn.2.1, hn.2.2.1, hn.2.2.2]
  have hX := sym2_tdm2 L.nlas.sum (state L v bra) (state L v ket)
  have hp : ∀ p q r u, p < L.nlas.getD i 0 → q < L.nlas.getD j 0 → r < L.nlas.getD k 0 → u < L.nlas.getD l 0 →
      tdm2 L.nlas.sum (state L v bra) (state L v ket) s1 t1 (fragStart L.nlas i + p) (fragStart L.nlas j + q)
        (fragStart L.nlas k + r) (fragStart L.nlas l + u) =
      (((fp * fh : Int) : K) * (pp p r * hh u q)) * wgt L v bra ket [i, j, k, l] := by
    intro p q r u hp hq hr hu
    rw [tdm2_wgt hD bra ket [i, j, k, l] hinv s1 t1 i j k l p q r u (by simp) (by simp) (by simp) (by simp) hp hq hr hu (by
      intro g hg; rw [show decF t1 k (decF s1 i (cz L bra)) g =
        decF t1 k (decF s1 i (mv i j s1 (mv k l t1 (cz L ket)))) g by unfold decF; rw [hm g hg]]
      funext σ; unfold decF mv; ring)]
    rw [hppv p r hp hr, hhhv u q hu hq, Int.cast_mul, efp, efh, ← sg_add]
    unfold dl2
    congr 2
    unfold ppX hhX
    by_cases hik : i = k
    · subst hik
      by_cases hjl : j = l
      · subst hjl
        rw [show [i, j, i, j].toFinset = [i, j].toFinset by ext; simp, List.prod_toFinset _ (by simp [hij])]
        simp [loc2, app, hij, Ne.symm hij]
      · rw [show [i, j, i, l].toFinset = [i, j, l].toFinset by ext; simp; tauto, List.prod_toFinset _ (by simp [hij, hil, hjl])]
        simp [loc2, app, hij, Ne.symm hij, hil, Ne.symm hil, hjl, Ne.symm hjl]
        ring
    · by_cases hjl : j = l
      · subst hjl
        rw [show [i, j, k, j].toFinset = [i, j, k].toFinset by ext; simp; tauto, List.prod_toFinset _ (by
          simp [hij, hik, Ne.symm hkj])]
        simp [loc2, app, hij, Ne.symm hij, hkj, Ne.symm hkj, hik, Ne.symm hik]
        ring
      · rw [List.prod_toFinset _ (by simp [hij, hik, hil, Ne.symm hkj, hjl, hkl])]
        simp [loc2, app, hij, Ne.symm hij, hkj, Ne.symm hkj, hik, Ne.symm hik, hil, Ne.symm hil, hkl, Ne.symm hkl, hjl,
          Ne.symm hjl]
        ring
  have hs2 : [0, 1, 3].getD (ix s1 + ix t1) 0 = ix2 s1 t1 := by revert hst; cases s1 <;> cases t1 <;> decide
  have hs2T : [0, 2, 3].getD (ix s1 + ix t1) 0 = ix2 t1 s1 := by revert hst; cases s1 <;> cases t1 <;> decide
  have hd : ix2 s1 t1 / 2 = ix s1 := by cases s1 <;> cases t1 <;> rfl
  have hmd : ix2 s1 t1 % 2 = ix t1 := by cases s1 <;> cases t1 <;> rfl
  have i2 : ∀ s t s' t' : Bool, ix2 s t ∈ [ix2 s' t'] ↔ s = s' ∧ t = t' := by decide
  have h1 := good2_put (good2_zero L.nlas (wgt L v bra ket [i, j, k, l]) (tdm2 L.nlas.sum (state L v bra) (state L v ket)))
    [ix2 s1 t1] i j k l (fun _ x0 x1 x2 x3 => ((fp * fh : Int) : K) * (pp x0 x2 * hh x3 x1)) (by
      intro s t p q r u hs g1 g2 g3 g4
      obtain ⟨rfl, rfl⟩ := (i2 _ _ _ _).mp hs
      exact hp p q r u g1 g2 g3 g4)
  have h2 := good2_put h1 [ix2 t1 s1] k l i j (fun _ x0 x1 x2 x3 => ((fp * fh : Int) : K) * (pp x2 x0 * hh x1 x3)) (by
      intro s t p q r u hs g1 g2 g3 g4
      obtain ⟨rfl, rfl⟩ := (i2 _ _ _ _).mp hs
      rw [hX.swap _ _ _ _ _ _ (frag_lt _ _ _ g1) (frag_lt _ _ _ g2) (frag_lt _ _ _ g3) (frag_lt _ _ _ g4)]
      exact hp r u p q g3 g4 g1 g2)
  by_cases hss : s1 = t1
  · subst hss
    have h3 := good2_put h2 [ix2 s1 s1] i l k j (fun _ x0 x1 x2 x3 => -(((fp * fh : Int) : K) * (pp x0 x2 * hh x1 x3))) (by
      intro s t p q r u hs g1 g2 g3 g4
      obtain ⟨rfl, rfl⟩ := (i2 _ _ _ _).mp hs
      rw [hX.exch _ _ _ _ _ (frag_lt _ _ _ g2) (frag_lt _ _ _ g4), hp p u r q g1 g4 g3 g2]
      ring)
    have h4 := good2_put h3 [ix2 s1 s1] k j i l (fun _ x0 x1 x2 x3 => -(((fp * fh : Int) : K) * (pp x2 x0 * hh x3 x1))) (by
      intro s t p q r u hs g1 g2 g3 g4
      obtain ⟨rfl, rfl⟩ := (i2 _ _ _ _).mp hs
      rw [hX.swap _ _ _ _ _ _ (frag_lt _ _ _ g1) (frag_lt _ _ _ g2) (frag_lt _ _ _ g3) (frag_lt _ _ _ g4),
        hX.exch _ _ _ _ _ (frag_lt _ _ _ g4) (frag_lt _ _ _ g2), hp r q p u g3 g2 g1 g4]
      ring)
    refine ⟨_, _, _, by
      unfold Lstdm.crunch Lstdm.crunch2c
      dsimp only
      rw [hs2, hs2T, hd, hmd, hpp, hhh]
      simp only [Option.bind_eq_bind, Option.bind_some, Option.pure_def, if_true]
      try rfl, ovlpFac_eq hD h8 bra ket [i, j, k, l] (by simp) hinv hspec, good1_zero _ _ _, good2_congr h4 ?_⟩
    intro s t a b c e
    rw [i2]
    unfold pat2c
    simp only [true_and, or_false]
    generalize (a = k ∧ b = j ∧ c = i ∧ e = l) = A1
    generalize (a = i ∧ b = l ∧ c = k ∧ e = j) = A2
    generalize (a = k ∧ b = l ∧ c = i ∧ e = j) = A3
    generalize (a = i ∧ b = j ∧ c = k ∧ e = l) = A4
    generalize (s = s1) = A5
    generalize (t = s1) = A6
    by_cases h5 : A5 <;> by_cases h6 : A6 <;> simp only [h5, h6, true_and, and_true, false_and, and_false, or_false]
    tauto
  · refine ⟨_, _, _, by
      unfold Lstdm.crunch Lstdm.crunch2c
      dsimp only
      rw [hs2, hs2T, hd, hmd, hpp, hhh]
      simp only [Option.bind_eq_bind, Option.bind_some, Option.pure_def]
      rw [if_neg (show ¬ ix2 s1 t1 = ix2 t1 s1 by revert hss; cases s1 <;> cases t1 <;> decide)],
      ovlpFac_eq hD h8 bra ket [i, j, k, l] (by simp) hinv hspec, good1_zero _ _ _, good2_congr h2 ?_⟩
    intro s t a b c e
    rw [i2, i2]
    unfold pat2c
    simp only [or_false, hss, false_and, and_assoc]
    exact or_comm

end

end Verif.Lstdm
