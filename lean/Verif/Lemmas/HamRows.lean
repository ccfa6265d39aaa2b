import Verif.Lemmas.HamGen
import Mathlib.Algebra.BigOperators.Field
import Mathlib.Tactic.FieldSimp
/-!
# Lemmas: each row of `HamS2Ovlp` gives the Hamiltonian and spin-squared functionals of the row of `LSTDM`
-/
namespace Verif.Lstdm
open Verif.Spec.Tdm Verif.Spec.Lstdm Verif.Spec.Fockspace Verif.Tdm Verif.Signs

variable {K : Type} [Field K]

/-- Symmetries of real integrals. -/
structure Ham.Sym (H : Ham K) : Prop where
  one : ∀ s p q, H.h1 s p q = H.h1 s q p
  two : ∀ p q r u, H.h2 p q r u = H.h2 q p u r
  swap : ∀ p q r u, H.h2 p q r u = H.h2 r u p q

/-- Coefficients of the Hamiltonian. -/
def GH (H : Ham K) : Nat → Nat → Nat → Nat → K := fun p q r u => 1 / 2 * H.h2 p q r u

/-- Kronecker delta. -/
def dl (p q : Nat) : K := if p = q then 1 else 0

/-- Coefficients of the spin-squared operator. -/
def Ss : Nat → Nat → Nat → Nat → K := fun p q r u => 1 / 4 * (dl p q * dl r u)
@[inherit_doc Ss]
def So : Nat → Nat → Nat → Nat → K := fun p q r u => -(1 / 4) * (dl p q * dl r u) - 1 / 2 * (dl p u * dl q r)

/-- The Hamiltonian functional. -/
def lamH (N : Nat) (H : Ham K) (d : D1 K × D2 K) : K := L1 N H.h1 d.1 + L2 N (gg (GH H) (GH H)) d.2
/-- The spin-squared functional. -/
def lamS (N : Nat) (d : D1 K × D2 K) : K := L1 N (fun _ p q => 3 / 4 * dl p q) d.1 + L2 N (gg Ss So) d.2

theorem dl_comm (p q : Nat) : (dl p q : K) = dl q p := by unfold dl; simp only [eq_comm]

theorem sw_GH {H : Ham K} (hH : H.Sym) : Sw (GH H) := fun p q r u => by unfold GH; rw [hH.swap p q r u]
theorem sw_Ss : Sw (Ss : Nat → Nat → Nat → Nat → K) := fun p q r u => by unfold Ss; ring
theorem sw_So : Sw (So : Nat → Nat → Nat → Nat → K) := fun p q r u => by
  unfold So; rw [dl_comm u p, dl_comm r q, dl_comm p u, dl_comm u p]; rw [dl_comm p u]; ring

theorem frag_inj (ns : List Nat) (i j a b : Nat) (ha : a < ns.getD i 0) (hb : b < ns.getD j 0) :
    fragStart ns i + a = fragStart ns j + b ↔ i = j ∧ a = b := by
  constructor
  · intro h
    have h1 := inRng_frag ns i i a ha
    rw [h, inRng_frag ns i j b hb] at h1
    have : j = i := by simpa using h1
    subst this
    exact ⟨rfl, by omega⟩
  · rintro ⟨rfl, rfl⟩; rfl

theorem dl_frag (ns : List Nat) (i j a b : Nat) (ha : a < ns.getD i 0) (hb : b < ns.getD j 0) :
    (dl (fragStart ns i + a) (fragStart ns j + b) : K) = if i = j then dl a b else 0 := by
  unfold dl
  simp only [frag_inj ns i j a b ha hb]
  by_cases h : i = j <;> simp [h]

theorem B4_zero (ns : List Nat) (g : Nat → Nat → Nat → Nat → K) (i j k l : Nat) (f : Nat → Nat → Nat → Nat → K)
    (h : ∀ a b c e, a < ns.getD i 0 → b < ns.getD j 0 → c < ns.getD k 0 → e < ns.getD l 0 →
      g (fragStart ns i + a) (fragStart ns j + b) (fragStart ns k + c) (fragStart ns l + e) = 0) : B4 ns g i j k l f = 0 := by
  unfold B4
  rw [S4_congr (G := fun _ _ _ _ => 0) (fun a b c e ha hb hc he => by rw [h a b c e ha hb hc he, zero_mul]), S4_zero]

theorem Ss_zero (ns : List Nat) (i j k l : Nat) (f : Nat → Nat → Nat → Nat → K) (h : ¬ (i = j ∧ k = l)) : B4 ns Ss i j k l f = 0 := by
  apply B4_zero
  intro a b c e ha hb hc he
  unfold Ss
  rw [dl_frag _ _ _ _ _ ha hb, dl_frag _ _ _ _ _ hc he]
  by_cases h1 : i = j
  · rw [if_neg (fun h2 => h ⟨h1, h2⟩)]; ring
  · rw [if_neg h1]; ring

theorem So_zero (ns : List Nat) (i j k l : Nat) (f : Nat → Nat → Nat → Nat → K) (h : ¬ (i = j ∧ k = l)) (h' : ¬ (i = l ∧ j = k)) :
    B4 ns So i j k l f = 0 := by
  apply B4_zero
  intro a b c e ha hb hc he
  unfold So
  rw [dl_frag _ _ _ _ _ ha hb, dl_frag _ _ _ _ _ hc he, dl_frag _ _ _ _ _ ha he, dl_frag _ _ _ _ _ hb hc]
  have e1 : (if i = j then dl a b else 0 : K) * (if k = l then dl c e else 0) = 0 := by
    by_cases h1 : i = j
    · rw [if_neg (fun h2 => h ⟨h1, h2⟩)]; ring
    · rw [if_neg h1]; ring
  have e2 : (if i = l then dl a e else 0 : K) * (if j = k then dl b c else 0) = 0 := by
    by_cases h1 : i = l
    · rw [if_neg (fun h2 => h' ⟨h1, h2⟩)]; ring
    · rw [if_neg h1]; ring
  rw [e1, e2]; ring

theorem exSs_zero (ns : List Nat) (i j k l : Nat) (f : Nat → Nat → Nat → Nat → K) (h : ¬ (i = l ∧ k = j)) :
    B4 ns (exch Ss) i j k l f = 0 := by
  apply B4_zero
  intro a b c e ha hb hc he
  unfold exch Ss
  rw [dl_frag _ _ _ _ _ ha he, dl_frag _ _ _ _ _ hc hb]
  by_cases h1 : i = l
  · rw [if_neg (fun h2 => h ⟨h1, h2⟩)]; ring
  · rw [if_neg h1]; ring

theorem S4_dd (n m : Nat) (x : K) (X : Nat → Nat → Nat → Nat → K) :
    S4 n n m m (fun a b c e => x * (dl a b * dl c e) * X a b c e) = x * S2 n m (fun a c => X a a c c) := by
  unfold S4 S2
  rw [Finset.mul_sum]
  refine Finset.sum_congr rfl fun a ha => ?_
  rw [Finset.sum_eq_single a (fun b _ hb => ?_) (fun h => absurd ha h)]
  · rw [Finset.mul_sum]
    refine Finset.sum_congr rfl fun c hc => ?_
    rw [Finset.sum_eq_single c (fun e _ he => ?_) (fun h => absurd hc h)]
    · simp [dl]
    · simp [dl, Ne.symm he]
  · simp [dl, Ne.symm hb]

theorem S4_dx (n m : Nat) (x : K) (X : Nat → Nat → Nat → Nat → K) :
    S4 n m m n (fun a b c e => x * (dl a e * dl b c) * X a b c e) = x * S2 n m (fun a b => X a b b a) := by
  unfold S4 S2
  rw [Finset.mul_sum]
  refine Finset.sum_congr rfl fun a ha => ?_
  rw [Finset.mul_sum]
  refine Finset.sum_congr rfl fun b hb => ?_
  rw [Finset.sum_eq_single b (fun c _ hc => ?_) (fun h => absurd hb h)]
  · rw [Finset.sum_eq_single a (fun e _ he => ?_) (fun h => absurd ha h)]
    · simp [dl]
    · simp [dl, Ne.symm he]
  · simp [dl, Ne.symm hc]

theorem Ss_dd (ns : List Nat) (i k : Nat) (f : Nat → Nat → Nat → Nat → K) :
    B4 ns Ss i i k k f = 1 / 4 * S2 (ns.getD i 0) (ns.getD k 0) (fun a c => f a a c c) := by
  rw [← S4_dd]
  unfold B4
  refine S4_congr fun a b c e ha hb hc he => ?_
  unfold Ss
  rw [dl_frag _ _ _ _ _ ha hb, dl_frag _ _ _ _ _ hc he, if_pos rfl, if_pos rfl]

theorem So_dd (ns : List Nat) (i k : Nat) (hik : i ≠ k) (f : Nat → Nat → Nat → Nat → K) :
    B4 ns So i i k k f = -(1 / 4) * S2 (ns.getD i 0) (ns.getD k 0) (fun a c => f a a c c) := by
  rw [← S4_dd]
  unfold B4
  refine S4_congr fun a b c e ha hb hc he => ?_
  unfold So
  rw [dl_frag _ _ _ _ _ ha hb, dl_frag _ _ _ _ _ hc he, dl_frag _ _ _ _ _ ha he, if_pos rfl, if_pos rfl, if_neg hik]
  ring

theorem So_ii (ns : List Nat) (i : Nat) (f : Nat → Nat → Nat → Nat → K) :
    B4 ns So i i i i f = -(1 / 4) * S2 (ns.getD i 0) (ns.getD i 0) (fun a c => f a a c c) -
      1 / 2 * S2 (ns.getD i 0) (ns.getD i 0) (fun a b => f a b b a) := by
  rw [← S4_dd, ← S4_dx, ← S4_sub]
  unfold B4
  refine S4_congr fun a b c e ha hb hc he => ?_
  unfold So
  rw [dl_frag _ _ _ _ _ ha hb, dl_frag _ _ _ _ _ hc he, dl_frag _ _ _ _ _ ha he, dl_frag _ _ _ _ _ hb hc, if_pos rfl, if_pos rfl,
    if_pos rfl, if_pos rfl]
  ring

theorem exSo_dd (ns : List Nat) (i k : Nat) (hik : i ≠ k) (f : Nat → Nat → Nat → Nat → K) :
    B4 ns (exch So) i i k k f = -(1 / 2) * S2 (ns.getD i 0) (ns.getD k 0) (fun a c => f a a c c) := by
  rw [← S4_dd]
  unfold B4
  refine S4_congr fun a b c e ha hb hc he => ?_
  unfold exch So
  rw [dl_frag _ _ _ _ _ ha he, dl_frag _ _ _ _ _ ha hb, dl_frag _ _ _ _ _ he hc, if_pos rfl, if_pos rfl, if_neg hik, dl_comm e c]
  ring

theorem B4_GH (H : Ham K) (ns : List Nat) (h2 : (2 : K) ≠ 0) (i j k l : Nat) (f : Nat → Nat → Nat → Nat → K) :
    2 * B4 ns (GH H) i j k l f = B4 ns H.h2 i j k l f := by
  unfold GH
  rw [B4_smul, ← mul_assoc, mul_one_div_cancel h2, one_mul]

theorem B4_exGH (H : Ham K) (ns : List Nat) (h2 : (2 : K) ≠ 0) (i j k l : Nat) (f : Nat → Nat → Nat → Nat → K) :
    2 * B4 ns (exch (GH H)) i j k l f = B4 ns (exch H.h2) i j k l f := by
  have : exch (GH H) = fun p q r u => 1 / 2 * exch H.h2 p q r u := rfl
  rw [this, B4_smul, ← mul_assoc, mul_one_div_cancel h2, one_mul]

theorem S4_sum {ι : Type} (T : Finset ι) (A B C E : Nat) (F : ι → Nat → Nat → Nat → Nat → K) :
    S4 A B C E (fun a b c e => ∑ t ∈ T, F t a b c e) = ∑ t ∈ T, S4 A B C E (F t) := by
  unfold S4
  simp_rw [Finset.sum_comm (s := Finset.range E) (t := T)]
  simp_rw [Finset.sum_comm (s := Finset.range C) (t := T)]
  simp_rw [Finset.sum_comm (s := Finset.range B) (t := T)]
  rw [Finset.sum_comm]

theorem two_eq (H : Ham K) (ns : List Nat) (i j s x y : Nat) : H.two ns i j s x y = H.h1 s (fragStart ns i + x) (fragStart ns j + y) := rfl
theorem four_eq (H : Ham K) (ns : List Nat) (i j k l x y z w : Nat) : H.four ns i j k l x y z w =
    H.h2 (fragStart ns i + x) (fragStart ns j + y) (fragStart ns k + z) (fragStart ns l + w) := rfl

theorem B2_dl (ns : List Nat) (i : Nat) (x : K) (f : Nat → Nat → K) :
    B2 ns (fun p q => x * dl p q) i i f = x * ∑ a ∈ Finset.range (ns.getD i 0), f a a := by
  unfold B2 S2
  rw [Finset.mul_sum]
  refine Finset.sum_congr rfl fun a ha => ?_
  rw [Finset.sum_eq_single a (fun b hb hab => ?_) (fun h => absurd ha h)]
  · simp [dl]
  · rw [Finset.mem_range] at ha hb
    dsimp only
    rw [dl_frag _ _ _ _ _ ha hb]
    simp [dl, Ne.symm hab]

variable [DecidableEq K]

/-- The row of `HamS2Ovlp` succeeds and gives the functionals of the row of `LSTDM`. -/
def RowHam (L : Lstdm K) (H : Ham K) (bra ket : Nat) (row : Lstdm.Row) : Prop :=
  ∀ d, L.crunch bra ket row = some d → ∃ o, L.hamRow H bra ket row = some (lamH L.nlas.sum H d, o) ∧ o.getD 0 = lamS L.nlas.sum d

variable (L : Lstdm K) {H : Ham K} (hH : H.Sym) (h2 : (2 : K) ≠ 0) (bra ket : Nat)

include hH h2 in
theorem rh_d1 (i : Nat) (hi : i < L.nlas.length) : RowHam L H bra ket (.d1 i) := by
  intro d hd
  unfold Lstdm.crunch Lstdm.crunch1d at hd
  obtain rfl := Option.some.inj hd
  refine ⟨_, congrArg some (Prod.ext ?_ rfl), ?_⟩
  · unfold lamH
    dsimp only
    rw [L1_put _ _ _ _ _ hi hi, L2_put _ _ _ _ _ _ _ _ hi hi hi hi _ (fun st _ => zr_zero _ st _ _ _ _), L2_zero, zero_add]
    congr 1
    · refine Finset.sum_congr rfl fun s hs => ?_
      rw [Finset.mem_range] at hs
      have e : s ∈ [0, 1] ∧ [0, 1].idxOf s = s := by interval_cases s <;> decide
      rw [if_pos e.1, e.2]
      unfold B2
      rw [S2_12]
      refine S2_congr fun a b _ _ => ?_
      rw [hH.one, mul_comm]; rfl
    · have e4 : ∀ st ∈ Finset.range 4, (if st ∈ [0, 1, 2, 3] then B4 L.nlas (gg (GH H) (GH H) st) i i i i
          ((L.ints i).get1Dm2 bra ket ([0, 1, 2, 3].idxOf st)) else 0) = B4 L.nlas (GH H) i i i i ((L.ints i).get1Dm2 bra ket st) := by
        intro st hs
        rw [Finset.mem_range] at hs
        have e : st ∈ [0, 1, 2, 3] ∧ [0, 1, 2, 3].idxOf st = st := by interval_cases st <;> decide
        rw [if_pos e.1, e.2]
        congr 1
        unfold gg; simp
      rw [Finset.sum_congr rfl e4]
      change S4 (L.no i) (L.no i) (L.no i) (L.no i) (fun p q r s => (∑ st ∈ Finset.range 4, (L.ints i).get1Dm2 bra ket st q p s r) *
        H.four L.nlas i i i i p q r s) * (1 / 2) = _
      rw [mul_comm, ← S4_mul]
      simp only [Finset.sum_mul, Finset.mul_sum]
      rw [S4_sum]
      refine Finset.sum_congr rfl fun st _ => ?_
      rw [S4_12, S4_34]
      refine S4_congr fun a b c e _ _ _ _ => ?_
      unfold GH
      rw [hH.two, four_eq]
      ring
  · unfold lamS
    dsimp only [Option.getD_some]
    rw [L1_put _ _ _ _ _ hi hi, L2_put _ _ _ _ _ _ _ _ hi hi hi hi _ (fun st _ => zr_zero _ st _ _ _ _), L2_zero, zero_add]
    have e2 : ∀ s ∈ Finset.range 2, (if s ∈ [0, 1] then B2 L.nlas (fun p q => 3 / 4 * dl p q) i i
        ((L.ints i).get1Dm1 bra ket ([0, 1].idxOf s)) else 0) = 3 / 4 * ∑ a ∈ Finset.range (L.nlas.getD i 0), (L.ints i).get1Dm1 bra ket s a a := by
      intro s hs
      rw [Finset.mem_range] at hs
      have e : s ∈ [0, 1] ∧ [0, 1].idxOf s = s := by interval_cases s <;> decide
      rw [if_pos e.1, e.2, B2_dl]
    have e4 : ∀ st ∈ Finset.range 4, (if st ∈ [0, 1, 2, 3] then B4 L.nlas (gg Ss So st) i i i i
        ((L.ints i).get1Dm2 bra ket ([0, 1, 2, 3].idxOf st)) else 0) = B4 L.nlas (gg Ss So st) i i i i ((L.ints i).get1Dm2 bra ket st) := by
      intro st hs
      rw [Finset.mem_range] at hs
      have e : st ∈ [0, 1, 2, 3] ∧ [0, 1, 2, 3].idxOf st = st := by interval_cases st <;> decide
      rw [if_pos e.1, e.2]
    have e : ∀ F : Nat → K, ∑ st ∈ Finset.range 4, F st = F 0 + F 1 + F 2 + F 3 := by
      intro F; simp [Finset.sum_range_succ]
    rw [Finset.sum_congr rfl e2, Finset.sum_congr rfl e4, e, gg0, gg1, gg2, gg3, Ss_dd, Ss_dd, So_ii, So_ii, ← Finset.mul_sum]
    have hX : (∑ p ∈ Finset.range (L.no i), ∑ q ∈ Finset.range (L.no i), ((L.ints i).get1Dm2 bra ket 1 p q q p +
        (L.ints i).get1Dm2 bra ket 2 p q q p)) = S2 (L.nlas.getD i 0) (L.nlas.getD i 0) (fun a b => (L.ints i).get1Dm2 bra ket 1 a b b a) +
        S2 (L.nlas.getD i 0) (L.nlas.getD i 0) (fun a b => (L.ints i).get1Dm2 bra ket 2 a b b a) := by rw [← S2_add]; rfl
    rw [hX]
    change 3 * (∑ s ∈ Finset.range 2, ∑ x ∈ Finset.range (L.nlas.getD i 0), (L.ints i).get1Dm1 bra ket s x x) / 4 +
      (S2 (L.nlas.getD i 0) (L.nlas.getD i 0) (fun a c => (L.ints i).get1Dm2 bra ket 0 a a c c) / 4 +
       S2 (L.nlas.getD i 0) (L.nlas.getD i 0) (fun a c => (L.ints i).get1Dm2 bra ket 3 a a c c) / 4 -
       S2 (L.nlas.getD i 0) (L.nlas.getD i 0) (fun a c => (L.ints i).get1Dm2 bra ket 1 a a c c) / 4 -
       S2 (L.nlas.getD i 0) (L.nlas.getD i 0) (fun a c => (L.ints i).get1Dm2 bra ket 2 a a c c) / 4) - _ / 2 = _
    ring

include hH h2 in
theorem rh_d2 (i j : Nat) (hi : i < L.nlas.length) (hj : j < L.nlas.length) (hij : i ≠ j) : RowHam L H bra ket (.d2 i j) := by
  intro d hd
  unfold Lstdm.crunch Lstdm.crunch2d at hd
  obtain rfl := Option.some.inj hd
  refine ⟨_, congrArg some (Prod.ext ?_ rfl), ?_⟩
  · unfold lamH
    dsimp only
    rw [L1_zero, zero_add, L2_2d L.nlas (sw_GH hH) (sw_GH hH) i j hi hj hij, mul_add, mul_add, mul_add, mul_add, B4_GH H _ h2, B4_GH H _ h2,
      B4_GH H _ h2, B4_GH H _ h2, B4_exGH H _ h2, B4_exGH H _ h2]
    set D : D1 K := (L.ints i).get1Dm1 bra ket with hD
    set E : D1 K := (L.ints j).get1Dm1 bra ket with hE
    have hA : ∀ f g : Nat → Nat → K, (∑ x ∈ Finset.range (L.no j), ∑ y ∈ Finset.range (L.no j), g x y *
        ∑ a ∈ Finset.range (L.no i), ∑ b ∈ Finset.range (L.no i), f a b * H.four L.nlas j j i i y x b a) =
        B4 L.nlas H.h2 i i j j (fun a b c e => f a b * g c e) := by
      intro f g
      simp only [Finset.mul_sum]
      change S4 (L.no j) (L.no j) (L.no i) (L.no i) (fun x y a b => g x y * (f a b * H.four L.nlas j j i i y x b a)) = _
      rw [S4_23, S4_12, S4_34, S4_23]
      refine S4_congr fun a b c e _ _ _ _ => ?_
      rw [four_eq, hH.swap, hH.two]
      ring
    have hB : ∀ f g : Nat → Nat → K, (∑ x ∈ Finset.range (L.no j), ∑ y ∈ Finset.range (L.no j), g x y *
        ∑ a ∈ Finset.range (L.no i), ∑ b ∈ Finset.range (L.no i), f a b * (H.four L.nlas j i i j y a b x / 2)) =
        1 / 2 * B4 L.nlas (exch H.h2) i i j j (fun a b c e => f a b * g c e) := by
      intro f g
      simp only [Finset.mul_sum]
      unfold B4
      rw [← S4_mul]
      change S4 (L.no j) (L.no j) (L.no i) (L.no i) (fun x y a b => g x y * (f a b * (H.four L.nlas j i i j y a b x / 2))) = _
      rw [S4_23, S4_12, S4_34, S4_23]
      refine S4_congr fun a b c e _ _ _ _ => ?_
      rw [four_eq, hH.two]
      unfold exch
      ring
    change ((∑ x ∈ Finset.range (L.no j), ∑ y ∈ Finset.range (L.no j), (E 0 x y + E 1 x y) *
        ∑ a ∈ Finset.range (L.no i), ∑ b ∈ Finset.range (L.no i), (D 0 a b + D 1 a b) * H.four L.nlas j j i i y x b a) -
      (∑ x ∈ Finset.range (L.no j), ∑ y ∈ Finset.range (L.no j), (E 0 x y + E 1 x y) *
        ∑ a ∈ Finset.range (L.no i), ∑ b ∈ Finset.range (L.no i), (D 0 a b + D 1 a b) * (H.four L.nlas j i i j y a b x / 2))) +
      (0 - ∑ x ∈ Finset.range (L.no j), ∑ y ∈ Finset.range (L.no j), (E 0 x y - E 1 x y) *
        ∑ a ∈ Finset.range (L.no i), ∑ b ∈ Finset.range (L.no i), (D 0 a b - D 1 a b) * (H.four L.nlas j i i j y a b x / 2)) = _
    rw [hA, hB, hB]
    change _ = B4 L.nlas H.h2 i i j j (fun a b c e => D 0 a b * E 0 c e) + B4 L.nlas H.h2 i i j j (fun a b c e => D 0 a b * E 1 c e) +
      B4 L.nlas H.h2 i i j j (fun a b c e => D 1 a b * E 0 c e) + B4 L.nlas H.h2 i i j j (fun a b c e => D 1 a b * E 1 c e) -
      (B4 L.nlas (exch H.h2) i i j j (fun a b c e => D 0 a b * E 0 c e) + B4 L.nlas (exch H.h2) i i j j (fun a b c e => D 1 a b * E 1 c e))
    unfold B4
    rw [← S4_mul, ← S4_mul, ← S4_add, ← S4_add, ← S4_add, ← S4_add, zero_sub, ← S4_neg, ← S4_sub, ← S4_add, ← S4_sub]
    refine S4_congr fun a b c e _ _ _ _ => ?_
    have := mul_one_div_cancel h2
    linear_combination (-(exch H.h2 (fragStart L.nlas i + a) (fragStart L.nlas i + b) (fragStart L.nlas j + c) (fragStart L.nlas j + e)) *
      (D 0 a b * E 0 c e + D 1 a b * E 1 c e)) * this
  · unfold lamS
    dsimp only [Option.getD_some]
    rw [L1_zero, zero_add, L2_2d L.nlas sw_Ss sw_So i j hi hj hij, Ss_dd, Ss_dd, So_dd _ _ _ hij, So_dd _ _ _ hij,
      exSs_zero _ _ _ _ _ _ (fun h => hij h.1), exSs_zero _ _ _ _ _ _ (fun h => hij h.1)]
    have hS : ∀ f g : Nat → K, S2 (L.nlas.getD i 0) (L.nlas.getD j 0) (fun a c => f a * g c) =
        (∑ a ∈ Finset.range (L.no i), f a) * ∑ c ∈ Finset.range (L.no j), g c := by
      intro f g; unfold S2; rw [Finset.sum_mul_sum]; rfl
    set D : D1 K := (L.ints i).get1Dm1 bra ket with hD
    set E : D1 K := (L.ints j).get1Dm1 bra ket with hE
    change (∑ x ∈ Finset.range (L.no j), (E 0 x x - E 1 x x)) * (∑ a ∈ Finset.range (L.no i), (D 0 a a - D 1 a a)) / 2 =
      0 + (2 * (1 / 4 * S2 (L.nlas.getD i 0) (L.nlas.getD j 0) (fun a c => D 0 a a * E 0 c c) +
        -(1 / 4) * S2 (L.nlas.getD i 0) (L.nlas.getD j 0) (fun a c => D 0 a a * E 1 c c) +
        -(1 / 4) * S2 (L.nlas.getD i 0) (L.nlas.getD j 0) (fun a c => D 1 a a * E 0 c c) +
        1 / 4 * S2 (L.nlas.getD i 0) (L.nlas.getD j 0) (fun a c => D 1 a a * E 1 c c)) - 2 * (0 + 0))
    rw [hS, hS, hS, hS, Finset.sum_sub_distrib, Finset.sum_sub_distrib]
    have : (4 : K) = 2 * 2 := by norm_num
    rw [this]
    field_simp
    ring

end Verif.Lstdm
