import Verif.Lemmas.HamRows
/-!
# Lemmas: rows of `HamS2Ovlp` with electron hops
-/
namespace Verif.Lstdm
open Verif.Spec.Tdm Verif.Spec.Lstdm Verif.Spec.Fockspace Verif.Tdm Verif.Signs

variable {K : Type} [Field K]

theorem B2_zero (ns : List Nat) (g : Nat → Nat → K) (i j : Nat) (f : Nat → Nat → K)
    (h : ∀ a b, a < ns.getD i 0 → b < ns.getD j 0 → g (fragStart ns i + a) (fragStart ns j + b) = 0) : B2 ns g i j f = 0 := by
  unfold B2
  rw [S2_congr (G := fun _ _ => 0) (fun a b ha hb => by rw [h a b ha hb, zero_mul]), S2_zero]

theorem L1_put1 (ns : List Nat) (g : D1 K) (s i j : Nat) (h2 : s < 2) (hi : i < ns.length) (hj : j < ns.length) (blk : Nat → Nat → Nat → K) :
    L1 ns.sum g (put2 zero1 [s] (getRange ns i) (getRange ns j) blk) = B2 ns (g s) i j (blk 0) := by
  rw [L1_put _ _ _ _ _ hi hj, Finset.sum_eq_single s (by intro b _ hb; rw [if_neg (by simpa using hb)])
    (by intro hn; exact absurd (Finset.mem_range.mpr h2) hn), if_pos (by simp)]
  simp

theorem B4_add (ns : List Nat) (g : Nat → Nat → Nat → Nat → K) (i j k l : Nat) (f f' : Nat → Nat → Nat → Nat → K) :
    B4 ns g i j k l f + B4 ns g i j k l f' = B4 ns g i j k l (fun a b c e => f a b c e + f' a b c e) := by
  unfold B4; rw [← S4_add]; exact S4_congr fun _ _ _ _ _ _ _ _ => by ring

theorem sum2 (s1 : Nat) (h1 : s1 < 2) (F : Nat → K) : ∑ t ∈ Finset.range 2, F t = F s1 + F (1 - s1) := by
  interval_cases s1
  · simp [Finset.sum_range_succ]
  · simp [Finset.sum_range_succ, add_comm]

theorem ix_lt (s : Bool) : ix s < 2 := by cases s <;> decide

variable [DecidableEq K] {L : Lstdm K} {v : Nat → Nat → Vec K} {H : Ham K} (hD : Describes L v) (hH : H.Sym) (h2 : (2 : K) ≠ 0) (bra ket : Nat)

omit [DecidableEq K] in
include hD in
theorem pph_anti (i : Nat) (hi : i < L.nlas.length) (s : Bool) (hc : ∀ σ, cz L ket i σ + (if σ = s then 1 else 0) = cz L bra i σ) (a b c : Nat)
    (ha : a < L.nlas.getD i 0) (hb : b < L.nlas.getD i 0) (hcc : c < L.nlas.getD i 0) :
    (L.ints i).get1Pph bra ket (ix s) (ix s) b a c = -(L.ints i).get1Pph bra ket (ix s) (ix s) a b c := by
  rw [get1Pph_eq hD bra ket i hi s s b a c hc hb ha hcc, get1Pph_eq hD bra ket i hi s s a b c hc ha hb hcc,
    ann_comm _ s s a b ha hb, ovl_neg_left, neg_neg]

omit [DecidableEq K] in
include hD in
theorem phh_anti (j : Nat) (hj : j < L.nlas.length) (s : Bool) (hc : ∀ σ, cz L bra j σ + (if σ = s then 1 else 0) = cz L ket j σ) (a b c : Nat)
    (ha : a < L.nlas.getD j 0) (hb : b < L.nlas.getD j 0) (hcc : c < L.nlas.getD j 0) :
    (L.ints j).get1Phh bra ket (ix s) (ix s) a c b = -(L.ints j).get1Phh bra ket (ix s) (ix s) a b c := by
  rw [get1Phh_eq hD bra ket j hj s s a c b hc ha hcc hb, get1Phh_eq hD bra ket j hj s s a b c hc ha hb hcc,
    ann_comm _ s s c b hcc hb, ovl_neg_right, neg_neg]

include hD hH h2 in
theorem rh_c1 (i j : Nat) (s1 : Bool) (hi : i < L.nlas.length) (hj : j < L.nlas.length) (hij : i ≠ j)
    (hm : ∀ g < L.nlas.length, cz L bra g = mv i j s1 (cz L ket) g) : RowHam L H bra ket (.c1 i j (ix s1)) := by
  have hci : ∀ σ, cz L ket i σ + (if σ = s1 then 1 else 0) = cz L bra i σ := by
    intro σ; rw [hm i hi]; simp [mv, hij]
  have hcj : ∀ σ, cz L bra j σ + (if σ = s1 then 1 else 0) = cz L ket j σ := by
    intro σ; rw [hm j hj]; simp [mv, Ne.symm hij]
  have hP := pph_anti hD bra ket i hi s1 hci
  have hQ := phh_anti hD bra ket j hj s1 hcj
  have hs := ix_lt s1
  generalize ix s1 = s at hP hQ hs
  intro d hd
  unfold Lstdm.crunch Lstdm.crunch1c at hd
  unfold Lstdm.hamRow Lstdm.ham1c
  dsimp only at hd ⊢
  cases e1 : fermionDesShuffle (L.nelecF bra) [i, j] i with
  | none => rw [e1] at hd; simp at hd
  | some f1 =>
  cases e2 : fermionDesShuffle (L.nelecF ket) [i, j] j with
  | none => rw [e1, e2] at hd; simp at hd
  | some f2 =>
  rw [e1, e2] at hd
  simp only [Option.bind_eq_bind, Option.bind_some, Option.pure_def] at hd ⊢
  obtain rfl := Option.some.inj hd
  generalize ((f1 * f2 : Int) : K) = fac
  have key : ∀ (g : D1 K) (Gs Go : Nat → Nat → Nat → Nat → K), Sw Gs → Sw Go → L1 L.nlas.sum g (put2 zero1 [s] (getRange L.nlas i) (getRange L.nlas j)
        (fun _ a b => fac * ((L.ints i).get1P bra ket s a * (L.ints j).get1H bra ket s b))) +
      L2 L.nlas.sum (gg Gs Go) (Lstdm.crunch1cTdm2 s (Lstdm.crunch1cTdm2 s zero2
        (fun t a b c e => fac * ((L.ints i).get1Pph bra ket s t a c e * (L.ints j).get1H bra ket s b))
        (getRange L.nlas i) (getRange L.nlas j) (getRange L.nlas i))
        (fun t a b c e => fac * ((L.ints i).get1P bra ket s a * (L.ints j).get1Phh bra ket s t c e b))
        (getRange L.nlas i) (getRange L.nlas j) (getRange L.nlas j)) =
      B2 L.nlas (g s) i j (fun a b => fac * ((L.ints i).get1P bra ket s a * (L.ints j).get1H bra ket s b)) +
      (2 * (B4 L.nlas Gs i j i i (fun a b c e => fac * ((L.ints i).get1Pph bra ket s s a c e * (L.ints j).get1H bra ket s b)) +
        B4 L.nlas Go i j i i (fun a b c e => fac * ((L.ints i).get1Pph bra ket s (1 - s) a c e * (L.ints j).get1H bra ket s b))) +
       2 * (B4 L.nlas Gs i j j j (fun a b c e => fac * ((L.ints i).get1P bra ket s a * (L.ints j).get1Phh bra ket s s c e b)) +
        B4 L.nlas Go i j j j (fun a b c e => fac * ((L.ints i).get1P bra ket s a * (L.ints j).get1Phh bra ket s (1 - s) c e b)))) := by
    intro g Gs Go hGs hGo
    obtain ⟨E1, E2⟩ := L2_1cB L.nlas hGs hGo s hs zero2 i j i hi hj hi hij
      (fun t a b c e => fac * ((L.ints i).get1Pph bra ket s t a c e * (L.ints j).get1H bra ket s b))
      (fun st => ⟨zr_zero _ _ _ _ _ _, zr_zero _ _ _ _ _ _⟩) (Or.inl ⟨rfl, fun a b c e ha hb hc he => by
        rw [hP a c e ha hc he]; ring⟩)
    obtain ⟨-, E3⟩ := L2_1cB L.nlas hGs hGo s hs (Lstdm.crunch1cTdm2 s zero2
        (fun t a b c e => fac * ((L.ints i).get1Pph bra ket s t a c e * (L.ints j).get1H bra ket s b))
        (getRange L.nlas i) (getRange L.nlas j) (getRange L.nlas i)) i j j hi hj hj hij
      (fun t a b c e => fac * ((L.ints i).get1P bra ket s a * (L.ints j).get1Phh bra ket s t c e b))
      (fun st => by
        rw [E1]
        exact ⟨zr_put (zr_put (zr_zero _ _ _ _ _ _) _ _ _ _ _ _ (fun h => hij h.2.2.2.1.symm)) _ _ _ _ _ _ (fun h => hij h.2.2.1.symm),
          zr_put (zr_put (zr_zero _ _ _ _ _ _) _ _ _ _ _ _ (fun h => hij h.2.1.symm)) _ _ _ _ _ _ (fun h => hij h.2.1.symm)⟩)
      (Or.inr ⟨rfl, fun a b c e ha hb hc he => by
        rw [hQ c e b hc he hb]; ring⟩)
    rw [E3, E2, L2_zero, L1_put1 _ _ _ _ _ hs hi hj, zero_add]
  refine ⟨none, congrArg some (Prod.ext ?_ rfl), ?_⟩
  · unfold lamH
    dsimp only
    rw [key _ _ _ (sw_GH hH) (sw_GH hH), mul_add, mul_add, B4_GH H _ h2, B4_GH H _ h2, B4_GH H _ h2, B4_GH H _ h2, B4_add, B4_add, add_mul,
      add_mul, add_assoc]
    congr 1
    · change (∑ y ∈ Finset.range (L.no j), (L.ints j).get1H bra ket s y * ∑ x ∈ Finset.range (L.no i), (L.ints i).get1P bra ket s x *
        H.two L.nlas j i s y x) * fac = _
      rw [mul_comm]
      simp only [Finset.mul_sum]
      change S2 (L.no j) (L.no i) (fun y x => fac * ((L.ints j).get1H bra ket s y * ((L.ints i).get1P bra ket s x * H.two L.nlas j i s y x))) = _
      rw [S2_12]
      refine S2_congr fun a b _ _ => ?_
      rw [two_eq, hH.one]; ring
    congr 1
    · rw [mul_comm]
      simp only [Finset.mul_sum, sum2 s hs]
      change S4 (L.no j) (L.no i) (L.no i) (L.no i) (fun y a b c => fac * ((L.ints j).get1H bra ket s y * (
        ((L.ints i).get1Pph bra ket s s a b c + (L.ints i).get1Pph bra ket s (1 - s) a b c) * H.four L.nlas j i i i y a c b))) = _
      rw [S4_12]
      refine S4_congr fun a b c e _ _ _ _ => ?_
      rw [four_eq, hH.two]; ring
    · rw [mul_comm]
      simp only [Finset.mul_sum, sum2 s hs]
      change S4 (L.no j) (L.no j) (L.no j) (L.no i) (fun a b c x => fac * (((L.ints j).get1Phh bra ket s s a b c +
        (L.ints j).get1Phh bra ket s (1 - s) a b c) * ((L.ints i).get1P bra ket s x * H.four L.nlas j j j i b a c x))) = _
      rw [S4_34, S4_23, S4_12, S4_34, S4_23]
      refine S4_congr fun a b c e _ _ _ _ => ?_
      rw [four_eq, hH.two, hH.swap]; ring
  · unfold lamS
    dsimp only [Option.getD_none]
    rw [key _ _ _ sw_Ss sw_So, B2_zero _ _ _ _ _ (fun a b ha hb => by rw [dl_frag _ _ _ _ _ ha hb, if_neg hij, mul_zero]),
      Ss_zero _ _ _ _ _ _ (fun h => hij h.1), Ss_zero _ _ _ _ _ _ (fun h => hij h.1),
      So_zero _ _ _ _ _ _ (fun h => hij h.1) (fun h => hij h.2.symm), So_zero _ _ _ _ _ _ (fun h => hij h.1) (fun h => hij h.1)]
    ring

omit hD in
include hH h2 in
theorem rh_c1d1 (i j k s : Nat) (hs : s < 2) (hi : i < L.nlas.length) (hj : j < L.nlas.length) (hk : k < L.nlas.length) (hij : i ≠ j)
    (hik : i ≠ k) (hjk : j ≠ k) : RowHam L H bra ket (.c1d1 i j k s) := by
  intro d hd
  unfold Lstdm.crunch Lstdm.crunch1c1d at hd
  unfold Lstdm.hamRow Lstdm.ham1c1d
  dsimp only at hd ⊢
  cases e1 : fermionDesShuffle (L.nelecF bra) [i, j, k] i with
  | none => rw [e1] at hd; simp at hd
  | some f1 =>
  cases e2 : fermionDesShuffle (L.nelecF ket) [i, j, k] j with
  | none => rw [e1, e2] at hd; simp at hd
  | some f2 =>
  rw [e1, e2] at hd
  simp only [Option.bind_eq_bind, Option.bind_some, Option.pure_def] at hd ⊢
  obtain rfl := Option.some.inj hd
  generalize ((f1 * f2 : Int) : K) = fac
  refine ⟨none, congrArg some (Prod.ext ?_ rfl), ?_⟩
  · unfold lamH
    dsimp only
    rw [L1_zero, zero_add, L2_1cA L.nlas (sw_GH hH) (sw_GH hH) s hs i j k hi hj hk hij hik hjk, mul_add, B4_GH H _ h2, B4_GH H _ h2,
      B4_exGH H _ h2]
    set D : D1 K := (L.ints k).get1Dm1 bra ket with hDd
    set p := (L.ints i).get1P bra ket s with hp
    set h := (L.ints j).get1H bra ket s with hh
    have hA : ∀ f : Nat → Nat → K, (∑ a ∈ Finset.range (L.no k), ∑ b ∈ Finset.range (L.no k), f a b *
        ∑ y ∈ Finset.range (L.no j), h y * ∑ x ∈ Finset.range (L.no i), p x * H.four L.nlas k k j i b a y x) =
        B4 L.nlas H.h2 i j k k (fun x y a b => p x * h y * f a b) := by
      intro f
      simp only [Finset.mul_sum]
      change S4 (L.no k) (L.no k) (L.no j) (L.no i) (fun a b y x => f a b * (h y * (p x * H.four L.nlas k k j i b a y x))) = _
      rw [S4_34, S4_23, S4_12, S4_34, S4_23]
      refine S4_congr fun a b c e _ _ _ _ => ?_
      rw [four_eq, hH.two, hH.swap]; ring
    have hB : ∀ f : Nat → Nat → K, (∑ a ∈ Finset.range (L.no k), ∑ b ∈ Finset.range (L.no k), f a b *
        ∑ y ∈ Finset.range (L.no j), h y * ∑ x ∈ Finset.range (L.no i), p x * H.four L.nlas j k k i y a b x) =
        B4 L.nlas (exch H.h2) i j k k (fun x y a b => p x * h y * f a b) := by
      intro f
      simp only [Finset.mul_sum]
      change S4 (L.no k) (L.no k) (L.no j) (L.no i) (fun a b y x => f a b * (h y * (p x * H.four L.nlas j k k i y a b x))) = _
      rw [S4_34, S4_23, S4_12, S4_34, S4_23]
      refine S4_congr fun a b c e _ _ _ _ => ?_
      rw [four_eq, hH.two, hH.swap]
      unfold exch
      ring
    change ((∑ a ∈ Finset.range (L.no k), ∑ b ∈ Finset.range (L.no k), (D 0 a b + D 1 a b) *
        ∑ y ∈ Finset.range (L.no j), h y * ∑ x ∈ Finset.range (L.no i), p x * H.four L.nlas k k j i b a y x) -
      (∑ a ∈ Finset.range (L.no k), ∑ b ∈ Finset.range (L.no k), (D 0 a b + D 1 a b) / 2 *
        ∑ y ∈ Finset.range (L.no j), h y * ∑ x ∈ Finset.range (L.no i), p x * H.four L.nlas j k k i y a b x)) * fac +
      (0 - ∑ a ∈ Finset.range (L.no k), ∑ b ∈ Finset.range (L.no k), ((D 0 a b - D 1 a b) * (-1) ^ s) / 2 *
        ∑ y ∈ Finset.range (L.no j), h y * ∑ x ∈ Finset.range (L.no i), p x * H.four L.nlas j k k i y a b x) * fac = _
    rw [hA, hB, hB]
    unfold B4
    rw [mul_comm _ fac, mul_comm _ fac, zero_sub, ← S4_neg, ← S4_sub, ← S4_mul, ← S4_mul, ← S4_add, ← S4_add, ← S4_sub]
    refine S4_congr fun a b c e _ _ _ _ => ?_
    have e0 := mul_one_div_cancel h2
    generalize exch H.h2 _ _ _ _ = X
    generalize H.h2 _ _ _ _ = Y
    have hx : s = 0 ∨ s = 1 := by omega
    rcases hx with e1 | e1 <;> simp only [e1, pow_zero, pow_one, Nat.sub_self, Nat.sub_zero]
    · linear_combination (-(fac * X * p a * h b * D 0 c e)) * e0
    · linear_combination (-(fac * X * p a * h b * D 1 c e)) * e0
  · unfold lamS
    dsimp only [Option.getD_none]
    rw [L1_zero, zero_add, L2_1cA L.nlas sw_Ss sw_So s hs i j k hi hj hk hij hik hjk, Ss_zero _ _ _ _ _ _ (fun h => hij h.1),
      So_zero _ _ _ _ _ _ (fun h => hij h.1) (fun h => hik h.1), exSs_zero _ _ _ _ _ _ (fun h => hik h.1)]
    ring

omit hD in
include hH h2 in
theorem rh_s1 (i j : Nat) (hi : i < L.nlas.length) (hj : j < L.nlas.length) (hij : i ≠ j) : RowHam L H bra ket (.s1 i j) := by
  intro d hd
  unfold Lstdm.crunch Lstdm.crunch1s at hd
  obtain rfl := Option.some.inj hd
  refine ⟨_, congrArg some (Prod.ext ?_ rfl), ?_⟩
  · unfold lamH
    dsimp only
    rw [L1_zero, zero_add, L2_1s L.nlas (sw_GH hH) (sw_GH hH) i j hi hj
      (fun a b c e => -((L.ints i).get1Sp bra ket a b * (L.ints j).get1Sm bra ket c e)), B4_exGH H _ h2]
    rw [mul_comm]
    simp only [Finset.mul_sum]
    change S4 (L.no j) (L.no j) (L.no i) (L.no i) (fun x y a b => -1 * ((L.ints j).get1Sm bra ket x y * ((L.ints i).get1Sp bra ket a b *
      H.four L.nlas j i i j x b a y))) = _
    rw [S4_23, S4_12, S4_34, S4_23]
    refine S4_congr fun a b c e _ _ _ _ => ?_
    rw [four_eq, hH.swap]
    unfold exch
    ring
  · unfold lamS
    dsimp only [Option.getD_some]
    rw [L1_zero, zero_add, L2_1s L.nlas sw_Ss sw_So i j hi hj
      (fun a b c e => -((L.ints i).get1Sp bra ket a b * (L.ints j).get1Sm bra ket c e)), exSo_dd _ _ _ hij]
    have e0 := mul_one_div_cancel h2
    have hS : S2 (L.nlas.getD i 0) (L.nlas.getD j 0) (fun a c => -((L.ints i).get1Sp bra ket a a * (L.ints j).get1Sm bra ket c c)) =
        -((∑ a ∈ Finset.range (L.no i), (L.ints i).get1Sp bra ket a a) * ∑ c ∈ Finset.range (L.no j), (L.ints j).get1Sm bra ket c c) := by
      rw [Finset.sum_mul_sum]
      unfold S2
      simp only [Finset.sum_neg_distrib]
      rfl
    rw [hS]
    linear_combination (-((∑ a ∈ Finset.range (L.no i), (L.ints i).get1Sp bra ket a a) * ∑ c ∈ Finset.range (L.no j), (L.ints j).get1Sm bra ket c c)) * e0

omit hD in
include hH h2 in
theorem rh_s1c1 (i j k s : Nat) (hs : s < 2) (hi : i < L.nlas.length) (hj : j < L.nlas.length) (hk : k < L.nlas.length) (hij : i ≠ j)
    (hik : i ≠ k) : RowHam L H bra ket (.s1c1 i j k s) := by
  intro d hd
  unfold Lstdm.crunch Lstdm.crunch1s1c at hd
  unfold Lstdm.hamRow Lstdm.ham1s1c
  dsimp only at hd ⊢
  cases e1 : fermionDesShuffle (L.nelecF bra) [i, j, k] i with
  | none => rw [e1] at hd; simp at hd
  | some f1 =>
  cases e2 : fermionDesShuffle (L.nelecF ket) [i, j, k] j with
  | none => rw [e1, e2] at hd; simp at hd
  | some f2 =>
  rw [e1, e2] at hd
  simp only [Option.bind_eq_bind, Option.bind_some, Option.pure_def] at hd ⊢
  obtain rfl := Option.some.inj hd
  generalize ((-1 * f1 * f2 : Int) : K) = fac
  generalize (if s = 0 then (L.ints k).get1Sm bra ket else (L.ints k).get1Sp bra ket) = dkk
  refine ⟨none, congrArg some (Prod.ext ?_ rfl), ?_⟩
  · unfold lamH
    dsimp only
    rw [L1_zero, zero_add, L2_1s1c L.nlas (sw_GH hH) (sw_GH hH) s hs i j k hi hj hk
      (fun x0 x1 x2 x3 => fac * ((L.ints i).get1P bra ket s x0 * (L.ints j).get1H bra ket (1 - s) x3 * dkk x2 x1)), B4_GH H _ h2]
    rw [mul_comm]
    simp only [Finset.mul_sum]
    change S4 (L.no k) (L.no k) (L.no j) (L.no i) (fun a b y x => fac * (dkk a b * ((L.ints j).get1H bra ket (1 - s) y *
      ((L.ints i).get1P bra ket s x * H.four L.nlas j k k i y a b x)))) = _
    rw [S4_34, S4_23, S4_12, S4_23]
    refine S4_congr fun a b c e _ _ _ _ => ?_
    rw [four_eq, hH.two, hH.swap]
    ring
  · unfold lamS
    dsimp only [Option.getD_none]
    rw [L1_zero, zero_add, L2_1s1c L.nlas sw_Ss sw_So s hs i j k hi hj hk
      (fun x0 x1 x2 x3 => fac * ((L.ints i).get1P bra ket s x0 * (L.ints j).get1H bra ket (1 - s) x3 * dkk x2 x1)),
      So_zero _ _ _ _ _ _ (fun h => hik h.1) (fun h => hij h.1)]
    ring

end Verif.Lstdm
