import Verif.Lemmas.LasEnergy
import Mathlib.Tactic.IntervalCases
/-!
# C121: energies, effective Hamiltonians and density matrices of LAS states
-/
namespace Verif.LasEnergy
open Verif.PsEnergy (Mat Ten lo hi makeRdm1s makeRdm2 dot1 dot2 vpot FragDm)
open Verif.Spec.LasEnergy
open Verif.Spec.SymBlocks (spaceOf)
open Verif.Props.PsEnergy
variable {K : Type} [Field K]

theorem two_body_split (T : Finset Nat) (G : Ten K) (d : Bool → Mat K) (D : Ten K)
    (hd : ∀ σ, ∀ p ∈ T, ∀ q ∈ T, d σ p q = d σ q p) :
    dot2 T G D = dot1 T (vpot T G d) d + dot2 T G (Las.cumulant d D) := by
  rw [vpot_dot _ _ _ _ hd]
  unfold dot2 coul exch
  simp only [← Finset.sum_add_distrib, ← Finset.sum_sub_distrib]
  refine Finset.sum_congr rfl fun p _ => Finset.sum_congr rfl fun q hq => Finset.sum_congr rfl fun r hr =>
    Finset.sum_congr rfl fun s _ => ?_
  unfold Las.cumulant
  rw [hd false r hr q hq, hd true r hr q hq]
  ring

theorem sum_onFrag2 (sub : List Nat) (G X : Ten K)
    (hX : ∀ p < sub.sum, ∀ q < sub.sum, ∀ r < sub.sum, ∀ s < sub.sum,
      ¬ (spaceOf sub p = spaceOf sub q ∧ spaceOf sub q = spaceOf sub r ∧ spaceOf sub r = spaceOf sub s) → X p q r s = 0) :
    (∑ f ∈ Finset.range sub.length, dot2 (Finset.range sub.sum) G (onFrag2 sub f X)) = dot2 (Finset.range sub.sum) G X := by
  unfold dot2
  rw [Finset.sum_comm]
  refine Finset.sum_congr rfl fun p hp => ?_
  rw [Finset.sum_comm]
  refine Finset.sum_congr rfl fun q hq => ?_
  rw [Finset.sum_comm]
  refine Finset.sum_congr rfl fun r hr => ?_
  rw [Finset.sum_comm]
  refine Finset.sum_congr rfl fun s hs => ?_
  rw [Finset.mem_range] at hp hq hr hs
  rw [← Finset.mul_sum]
  congr 1
  unfold onFrag2
  rw [Finset.sum_eq_single (spaceOf sub p)]
  · by_cases h : spaceOf sub p = spaceOf sub q ∧ spaceOf sub q = spaceOf sub r ∧ spaceOf sub r = spaceOf sub s
    · rw [if_pos]
      obtain ⟨h1, h2, h3⟩ := h
      exact ⟨⟨rfl, h1.symm⟩, (h1.trans h2).symm, (h1.trans (h2.trans h3)).symm⟩
    · rw [hX p hp q hq r hr s hs h]
      exact ite_self _
  · intro f _ hf
    rw [if_neg (fun x => hf x.1.1.symm)]
  · intro h
    exact absurd (Finset.mem_range.2 (spaceOf_lt sub p hp)) h

theorem frag_loc (L : Las K) (f a : Nat) (ha : a < L.sub.getD f 0) :
    lo L.sub f + a < L.ncas ∧ spaceOf L.sub (lo L.sub f + a) = f := by
  have ba : lo L.sub f + a < L.ncas := slice_bound L f a ha
  refine ⟨ba, (ins_iff L.sub _ ba f).1 ?_⟩
  unfold PsEnergy.ins PsEnergy.hi
  simp only [Bool.and_eq_true, decide_eq_true_eq]
  omega

theorem e2_eq (L : Las K) (h : Ok L) (k : Nat) :
    (∑ f ∈ Finset.range L.sub.length,
      (∑ p ∈ Finset.range (L.sub.getD f 0), ∑ q ∈ Finset.range (L.sub.getD f 0),
        ∑ u ∈ Finset.range (L.sub.getD f 0), ∑ v ∈ Finset.range (L.sub.getD f 0),
          L.h2effSlice f p q u v * Las.cumulant (L.dm1 f k) (L.dm2 f k) p q u v) / 2) =
      2⁻¹ * dot2 (Finset.range L.ncas) L.Ga (Las.cumulant (L.stateCasdm1s k) (makeRdm2 L.sub (L.fr k))) := by
  have hs := sum_onFrag2 L.sub L.Ga (Las.cumulant (L.stateCasdm1s k) (makeRdm2 L.sub (L.fr k)))
    (fun p hp q hq r hr s hs hne => by rw [cumulant_block L h k p q r s hp hq hr hs, if_neg hne])
  rw [show L.ncas = L.sub.sum from rfl, ← hs, Finset.mul_sum]
  refine Finset.sum_congr rfl fun f _ => ?_
  rw [← dot2_slice, div_eq_inv_mul]
  congr 1
  unfold dot2 PsEnergy.hi
  simp only [sum_Ico]
  refine Finset.sum_congr rfl fun p hp => Finset.sum_congr rfl fun q hq => Finset.sum_congr rfl fun r hr =>
    Finset.sum_congr rfl fun s hs => ?_
  rw [Finset.mem_range] at hp hq hr hs
  obtain ⟨p1, p2⟩ := frag_loc L f p hp
  obtain ⟨q1, q2⟩ := frag_loc L f q hq
  obtain ⟨r1, r2⟩ := frag_loc L f r hr
  obtain ⟨s1, s2⟩ := frag_loc L f s hs
  rw [h2effSlice_eq L h f p q r s hp hq hr hs, cumulant_block L h k _ _ _ _ p1 q1 r1 s1, p2, q2, r2, s2]
  simp only [and_self, if_true, Nat.add_sub_cancel_left]
  rfl

/-- The code's energy in terms of the active orbitals. -/
theorem state_split (L : Las K) (h : Ok L) (k : Nat) :
    L.stateEnergy k = L.e0 + dot1 (Finset.range L.ncas) (fun _ => L.h1eff) (L.stateCasdm1s k) +
      2⁻¹ * dot1 (Finset.range L.ncas) (vpot (Finset.range L.ncas) L.Ga (L.stateCasdm1s k)) (L.stateCasdm1s k) +
      2⁻¹ * dot2 (Finset.range L.ncas) L.Ga (Las.cumulant (L.stateCasdm1s k) (makeRdm2 L.sub (L.fr k))) := by
  unfold Las.stateEnergy
  simp only
  rw [e2_eq L h k]
  have e1 : (∑ σ : Bool, ∑ p ∈ Finset.range L.ncas, ∑ q ∈ Finset.range L.ncas,
      (L.h1eff p q + ((∑ a ∈ Finset.range L.ncas, ∑ b ∈ Finset.range L.ncas,
        (L.stateCasdm1s k false a b + L.stateCasdm1s k true a b) * L.eriCas a b p q) -
        ∑ a ∈ Finset.range L.ncas, ∑ b ∈ Finset.range L.ncas, L.stateCasdm1s k σ a b * L.eriCas p b a q) / 2) *
        L.stateCasdm1s k σ p q) =
      dot1 (Finset.range L.ncas) (fun _ => L.h1eff) (L.stateCasdm1s k) +
      2⁻¹ * dot1 (Finset.range L.ncas) (vpot (Finset.range L.ncas) L.Ga (L.stateCasdm1s k)) (L.stateCasdm1s k) := by
    unfold dot1
    simp only [Finset.mul_sum (a := (2⁻¹ : K)), ← Finset.sum_add_distrib]
    refine Finset.sum_congr rfl fun σ _ => Finset.sum_congr rfl fun p hp => Finset.sum_congr rfl fun q hq => ?_
    rw [Finset.mem_range] at hp hq
    have hv : (∑ a ∈ Finset.range L.ncas, ∑ b ∈ Finset.range L.ncas,
        (L.stateCasdm1s k false a b + L.stateCasdm1s k true a b) * L.eriCas a b p q) -
        (∑ a ∈ Finset.range L.ncas, ∑ b ∈ Finset.range L.ncas, L.stateCasdm1s k σ a b * L.eriCas p b a q) =
        vpot (Finset.range L.ncas) L.Ga (L.stateCasdm1s k) σ p q := by
      unfold vpot
      congr 1
      · rw [← Finset.sum_add_distrib]
        refine Finset.sum_congr rfl fun a ha => ?_
        rw [← Finset.sum_add_distrib]
        refine Finset.sum_congr rfl fun b hb => ?_
        rw [Finset.mem_range] at ha hb
        rw [eriCas_eq L h a b p q ha hb hp hq]
        cases σ <;> simp only [Bool.not_true, Bool.not_false] <;> ring
      · refine Finset.sum_congr rfl fun a ha => Finset.sum_congr rfl fun b hb => ?_
        rw [Finset.mem_range] at ha hb
        rw [eriCas_eq L h p b a q hp hb ha hq]
    rw [hv, div_eq_inv_mul]
    ring
  rw [e1]
  ring

/-- The energy is that of the fragments in the field of the core. -/
theorem active_form (L : Las K) (h : Ok L) (k : Nat) :
    L.stateEnergy k = PsEnergy.energyElec L.sub L.e0 (fun _ => L.h1eff) L.Ga (L.fr k) := by
  rw [state_split L h k]
  unfold PsEnergy.energyElec
  rw [two_body_split (Finset.range L.sub.sum) L.Ga (makeRdm1s L.sub (L.fr k)) (makeRdm2 L.sub (L.fr k))
    (fun σ p hp q hq => stateCasdm1s_symm L h k σ p q (Finset.mem_range.1 hp) (Finset.mem_range.1 hq))]
  have e : L.stateCasdm1s k = makeRdm1s L.sub (L.fr k) := rfl
  rw [e, show L.ncas = L.sub.sum from rfl]
  ring

theorem actD_symm (n m : Nat) (d : Bool → Mat K) (hd : ∀ σ, ∀ p < m, ∀ q < m, d σ p q = d σ q p) (σ : Bool) :
    ∀ p ∈ Finset.range (n + m), ∀ q ∈ Finset.range (n + m), actD n d σ p q = actD n d σ q p := by
  intro p hp q hq
  rw [Finset.mem_range] at hp hq
  unfold actD
  by_cases h : n ≤ p ∧ n ≤ q
  · rw [if_pos h, if_pos h.symm]
    exact hd σ _ (by omega) _ (by omega)
  · rw [if_neg h, if_neg (fun x => h x.symm)]

/-- Core energy, field of the core and interaction of the active electrons. -/
theorem core_split (L : Las K) (h : Ok L) (two : (2 : K) ≠ 0) (d : Bool → Mat K)
    (hd : ∀ σ, ∀ p < L.ncas, ∀ q < L.ncas, d σ p q = d σ q p) :
    dot1 (Finset.range (L.ncore + L.ncas)) (fun _ => mo1 L.nao L.mo L.hcore) (rdm1 L.ncore d) +
      2⁻¹ * dot1 (Finset.range (L.ncore + L.ncas)) (vpot (Finset.range (L.ncore + L.ncas)) L.G (rdm1 L.ncore d))
        (rdm1 L.ncore d) =
      L.e0 + dot1 (Finset.range L.ncas) (fun _ => L.h1eff) d +
        2⁻¹ * dot1 (Finset.range L.ncas) (vpot (Finset.range L.ncas) L.Ga d) d := by
  have hr : rdm1 L.ncore d = fun σ p q => coreD L.ncore σ p q + actD L.ncore d σ p q := by
    funext σ p q
    exact rdm1_split L.ncore d σ p q
  rw [hr, inter_split _ L.G (mo2_sym L.nao L.mo L.g h.g) (coreD L.ncore) (actD L.ncore d) (fun σ p _ q _ => coreD_symm _ _ _ _)
    (actD_symm L.ncore L.ncas d hd), e0_eq L h two,
    dot1_comm _ _ (fun σ p q => coreD L.ncore σ p q + actD L.ncore d σ p q), dot1_add, dot1_comm _ (coreD L.ncore),
    dot1_comm _ (actD L.ncore d), dot1_act, dot1_act, dot1_act]
  have h1 : dot1 (Finset.range L.ncas) (fun _ => L.h1eff) d =
      dot1 (Finset.range L.ncas) (fun _ p q => mo1 L.nao L.mo L.hcore (L.ncore + p) (L.ncore + q)) d +
      dot1 (Finset.range L.ncas) (fun σ p q => vpot (Finset.range (L.ncore + L.ncas)) L.G (coreD L.ncore) σ (L.ncore + p)
        (L.ncore + q)) d := by
    rw [← dot1_add]
    exact dot1_congr _ _ _ _ _ fun σ p _ q _ => by rw [h1eff_mo L h two σ]
  have h2 : dot1 (Finset.range L.ncas) (fun σ p q => vpot (Finset.range (L.ncore + L.ncas)) L.G (actD L.ncore d) σ (L.ncore + p)
        (L.ncore + q)) d = dot1 (Finset.range L.ncas) (vpot (Finset.range L.ncas) L.Ga d) d :=
    dot1_congr _ _ _ _ _ fun σ p _ q _ => by rw [vpot_act]
  rw [h1, h2]
  field_simp
  ring

theorem cumulant_congr (d : Bool → Mat K) (D D' : Ten K) (p q r s : Nat) (h : D p q r s = D' p q r s) :
    Las.cumulant d D p q r s = Las.cumulant d D' p q r s := by
  unfold Las.cumulant
  rw [h]

/-- Energy from the density matrices, in terms of the active orbitals. -/
theorem spec_active (L : Las K) (h : Ok L) (two : (2 : K) ≠ 0) (d : Bool → Mat K) (D : Ten K)
    (hd : ∀ σ, ∀ p < L.ncas, ∀ q < L.ncas, d σ p q = d σ q p) :
    energy (L.ncore + L.ncas) (mo1 L.nao L.mo L.hcore) L.G (rdm1 L.ncore d) (rdm2 L.ncore d D) =
      L.e0 + dot1 (Finset.range L.ncas) (fun _ => L.h1eff) d +
        2⁻¹ * dot1 (Finset.range L.ncas) (vpot (Finset.range L.ncas) L.Ga d) d +
        2⁻¹ * dot2 (Finset.range L.ncas) L.Ga (Las.cumulant d D) := by
  rw [spec_split _ _ _ _ _ _ (rdm1_symm L.ncore L.ncas d hd), core_split L h two d hd]

/-- What `h1e_for_las` computes is the effective Hamiltonian of the fragment in the field of the core and the other fragments. -/
theorem h1eFor_eq (L : Las K) (h : Ok L) (two : (2 : K) ≠ 0) (f k : Nat) (σ : Bool) (x y : Nat)
    (hx : x < L.sub.getD f 0) (hy : y < L.sub.getD f 0) :
    L.h1eFor f k σ x y = PsEnergy.h1eff L.sub (fun _ => L.h1eff) L.Ga (L.fr k) f σ (lo L.sub f + x) (lo L.sub f + y) := by
  have bx := (frag_loc L f x hx).1
  have by' := (frag_loc L f y hy).1
  -- the averaged potential
  have hA : ∀ p q, L.h1eAvg σ p q = L.h1eff p q + vpot (Finset.range L.ncas) L.Ga L.casdm1s σ p q := by
    intro p q
    unfold Las.h1eAvg
    rw [toCas_eq, mo1_add, h1eff_mo L h two σ]
    rw [veff_mo L h.g (L.ncore + L.ncas) _ (rdm1 L.ncore L.casdm1s) (fun τ μ ν => rdm1s_eq L τ μ ν)
        (rdm1_symm L.ncore L.ncas _ (fun τ p hp q hq => casdm1s_symm L h τ p q hp hq)) σ]
    have hr : rdm1 L.ncore L.casdm1s = fun σ p q => coreD L.ncore σ p q + actD L.ncore L.casdm1s σ p q := by
      funext σ p q
      exact rdm1_split L.ncore _ σ p q
    rw [hr, vpot_add, vpot_act]
    ring
  have hB : ∀ p q, p < L.ncas → q < L.ncas →
      L.h1er k σ p q = L.h1eff p q + vpot (Finset.range L.ncas) L.Ga (L.stateCasdm1s k) σ p q := by
    intro p q hp hq
    unfold Las.h1er
    simp only
    rw [hA]
    unfold vpot
    have hJ : ∀ τ, (∑ a ∈ Finset.range L.ncas, ∑ b ∈ Finset.range L.ncas,
        (L.stateCasdm1s k τ a b - L.casdm1s τ a b) * L.eriCas p q a b) =
        (∑ a ∈ Finset.range L.ncas, ∑ b ∈ Finset.range L.ncas, L.stateCasdm1s k τ a b * L.Ga a b p q) -
        ∑ a ∈ Finset.range L.ncas, ∑ b ∈ Finset.range L.ncas, L.casdm1s τ a b * L.Ga a b p q := by
      intro τ
      simp only [← Finset.sum_sub_distrib]
      refine Finset.sum_congr rfl fun a ha => Finset.sum_congr rfl fun b hb => ?_
      rw [Finset.mem_range] at ha hb
      rw [eriCas_eq L h p q a b hp hq ha hb, (Ga_sym L h).pairs p q a b]
      ring
    have hK : (∑ a ∈ Finset.range L.ncas, ∑ b ∈ Finset.range L.ncas,
        (L.stateCasdm1s k σ a b - L.casdm1s σ a b) * L.eriCas p b a q) =
        (∑ a ∈ Finset.range L.ncas, ∑ b ∈ Finset.range L.ncas, L.stateCasdm1s k σ a b * L.Ga p b a q) -
        ∑ a ∈ Finset.range L.ncas, ∑ b ∈ Finset.range L.ncas, L.casdm1s σ a b * L.Ga p b a q := by
      simp only [← Finset.sum_sub_distrib]
      refine Finset.sum_congr rfl fun a ha => Finset.sum_congr rfl fun b hb => ?_
      rw [Finset.mem_range] at ha hb
      rw [eriCas_eq L h p b a q hp hb ha hq]
      ring
    rw [hJ, hJ, hK]
    ring
  unfold Las.h1eFor PsEnergy.h1eff
  simp only
  rw [show (L.sub.take f).sum = lo L.sub f from rfl, hB _ _ bx by']
  rw [show L.sub.sum = L.ncas from rfl]
  have hS : ∀ (F : Nat → Nat → K), (∑ p ∈ Finset.Ico (lo L.sub f) (hi L.sub f), ∑ q ∈ Finset.Ico (lo L.sub f) (hi L.sub f),
      F p q) = ∑ a ∈ Finset.range (L.sub.getD f 0), ∑ b ∈ Finset.range (L.sub.getD f 0), F (lo L.sub f + a) (lo L.sub f + b) := by
    intro F
    unfold PsEnergy.hi
    simp only [sum_Ico]
  have hd : ∀ τ a b, a < L.sub.getD f 0 → b < L.sub.getD f 0 →
      makeRdm1s L.sub (L.fr k) τ (lo L.sub f + a) (lo L.sub f + b) = L.dm1 f k τ a b := by
    intro τ a b ha hb
    obtain ⟨a1, a2⟩ := frag_loc L f a ha
    obtain ⟨b1, b2⟩ := frag_loc L f b hb
    rw [makeRdm1s_eq _ _ _ _ _ a1 b1, a2, b2, if_pos rfl, Nat.add_sub_cancel_left, Nat.add_sub_cancel_left]
  have hJ : ∀ τ, (∑ a ∈ Finset.range (L.sub.getD f 0), ∑ b ∈ Finset.range (L.sub.getD f 0),
      L.dm1 f k τ a b * L.eriCas (lo L.sub f + x) (lo L.sub f + y) (lo L.sub f + a) (lo L.sub f + b)) =
      ∑ p ∈ Finset.Ico (lo L.sub f) (hi L.sub f), ∑ q ∈ Finset.Ico (lo L.sub f) (hi L.sub f),
        makeRdm1s L.sub (L.fr k) τ p q * L.Ga p q (lo L.sub f + x) (lo L.sub f + y) := by
    intro τ
    rw [hS]
    refine Finset.sum_congr rfl fun a ha => Finset.sum_congr rfl fun b hb => ?_
    rw [Finset.mem_range] at ha hb
    rw [hd τ a b ha hb, eriCas_eq L h _ _ _ _ bx by' (frag_loc L f a ha).1 (frag_loc L f b hb).1, (Ga_sym L h).pairs]
  have hK : (∑ a ∈ Finset.range (L.sub.getD f 0), ∑ b ∈ Finset.range (L.sub.getD f 0),
      L.dm1 f k σ a b * L.eriCas (lo L.sub f + x) (lo L.sub f + b) (lo L.sub f + a) (lo L.sub f + y)) =
      ∑ p ∈ Finset.Ico (lo L.sub f) (hi L.sub f), ∑ q ∈ Finset.Ico (lo L.sub f) (hi L.sub f),
        makeRdm1s L.sub (L.fr k) σ p q * L.Ga (lo L.sub f + x) q p (lo L.sub f + y) := by
    rw [hS]
    refine Finset.sum_congr rfl fun a ha => Finset.sum_congr rfl fun b hb => ?_
    rw [Finset.mem_range] at ha hb
    rw [hd σ a b ha hb, eriCas_eq L h _ _ _ _ bx (frag_loc L f b hb).1 (frag_loc L f a ha).1 by']
  rw [hJ, hJ, hK, show L.stateCasdm1s k = makeRdm1s L.sub (L.fr k) from rfl]
  unfold vpot
  ring
end Verif.LasEnergy

namespace Verif.LasEnergy
open Verif.PsEnergy (Mat Ten lo hi makeRdm1s makeRdm2 dot1 dot2 vpot FragDm)
open Verif.Spec.LasEnergy
open Verif.Props.PsEnergy
variable {K : Type} [Field K]

/-- Density matrices which are averages with weights of sum one. -/
theorem rdm1_avg (n m R : Nat) (w : Nat → K) (hw : ∑ k ∈ Finset.range R, w k = 1) (d : Bool → Mat K) (dk : Nat → Bool → Mat K)
    (hd : ∀ σ, ∀ p < m, ∀ q < m, d σ p q = ∑ k ∈ Finset.range R, w k * dk k σ p q) (σ : Bool) (p q : Nat) (hp : p < n + m)
    (hq : q < n + m) : rdm1 n d σ p q = ∑ k ∈ Finset.range R, w k * rdm1 n (dk k) σ p q := by
  unfold rdm1
  by_cases h : p < n ∨ q < n
  · simp only [if_pos h]
    rw [← Finset.sum_mul, hw, one_mul]
  · simp only [if_neg h]
    exact hd σ _ (by omega) _ (by omega)

@[inherit_doc rdm1_avg]
theorem rdm2_avg (n m R : Nat) (w : Nat → K) (hw : ∑ k ∈ Finset.range R, w k = 1) (d : Bool → Mat K) (dk : Nat → Bool → Mat K)
    (hd : ∀ σ, ∀ p < m, ∀ q < m, d σ p q = ∑ k ∈ Finset.range R, w k * dk k σ p q) (D : Ten K) (Dk : Nat → Ten K)
    (hD : ∀ p < m, ∀ q < m, ∀ r < m, ∀ s < m, D p q r s = ∑ k ∈ Finset.range R, w k * Dk k p q r s) (p q r s : Nat)
    (hp : p < n + m) (hq : q < n + m) (hr : r < n + m) (hs : s < n + m) :
    rdm2 n d D p q r s = ∑ k ∈ Finset.range R, w k * rdm2 n (dk k) (Dk k) p q r s := by
  have hk : ∀ c : K, (∑ k ∈ Finset.range R, w k * c) = c := by
    intro c
    rw [← Finset.sum_mul, hw, one_mul]
  have hρ : ∀ x y, ¬ x < n → ¬ y < n → x < n + m → y < n + m → ∀ c : K,
      c * (d false (x - n) (y - n) + d true (x - n) (y - n)) =
      ∑ k ∈ Finset.range R, w k * (c * (dk k false (x - n) (y - n) + dk k true (x - n) (y - n))) := by
    intro x y h1 h2 h3 h4 c
    rw [hd false _ (by omega) _ (by omega), hd true _ (by omega) _ (by omega), ← Finset.sum_add_distrib, Finset.mul_sum]
    exact Finset.sum_congr rfl fun k _ => by ring
  have hn : ∀ x y, ¬ x < n → ¬ y < n → x < n + m → y < n + m → ∀ c : K,
      -(c * (d false (x - n) (y - n) + d true (x - n) (y - n))) =
      ∑ k ∈ Finset.range R, w k * -(c * (dk k false (x - n) (y - n) + dk k true (x - n) (y - n))) := by
    intro x y h1 h2 h3 h4 c
    rw [← neg_mul, hρ x y h1 h2 h3 h4 (-c)]
    exact Finset.sum_congr rfl fun k _ => by ring
  unfold rdm2
  simp only
  by_cases a : p < n <;> by_cases b : q < n <;> by_cases c : r < n <;> by_cases e : s < n <;>
    simp only [a, b, c, e, decide_true, decide_false, hk]
  · exact hρ _ _ c e hr hs _
  · exact hn _ _ c b hr hq _
  · exact hn _ _ a e hp hs _
  · exact hρ _ _ a b hp hq _
  · exact hD _ (by omega) _ (by omega) _ (by omega) _ (by omega)

theorem energy_avg (n R : Nat) (w : Nat → K) (h : Mat K) (G : Ten K) (γ : Bool → Mat K) (γk : Nat → Bool → Mat K) (Γ : Ten K)
    (Γk : Nat → Ten K) (h1 : ∀ σ, ∀ p < n, ∀ q < n, γ σ p q = ∑ k ∈ Finset.range R, w k * γk k σ p q)
    (h2 : ∀ p < n, ∀ q < n, ∀ r < n, ∀ s < n, Γ p q r s = ∑ k ∈ Finset.range R, w k * Γk k p q r s) :
    energy n h G γ Γ = ∑ k ∈ Finset.range R, w k * energy n h G (γk k) (Γk k) := by
  unfold energy
  simp only [mul_add, Finset.sum_add_distrib]
  congr 1
  · rw [Fintype.sum_bool]
    simp only [Fintype.sum_bool, mul_add, Finset.sum_add_distrib]
    have e : ∀ σ, (∑ p ∈ Finset.range n, ∑ q ∈ Finset.range n, h p q * γ σ p q) =
        ∑ k ∈ Finset.range R, w k * ∑ p ∈ Finset.range n, ∑ q ∈ Finset.range n, h p q * γk k σ p q := by
      intro σ
      have e' : ∀ k, w k * (∑ p ∈ Finset.range n, ∑ q ∈ Finset.range n, h p q * γk k σ p q) =
          ∑ p ∈ Finset.range n, ∑ q ∈ Finset.range n, w k * (h p q * γk k σ p q) := by
        intro k
        rw [Finset.mul_sum]
        exact Finset.sum_congr rfl fun p _ => Finset.mul_sum _ _ _
      simp only [e']
      refine Eq.trans ?_ (out2 _ _ _ _)
      refine Finset.sum_congr rfl fun p hp => Finset.sum_congr rfl fun q hq => ?_
      rw [h1 σ p (Finset.mem_range.1 hp) q (Finset.mem_range.1 hq), Finset.mul_sum]
      exact Finset.sum_congr rfl fun k _ => by ring
    rw [e, e]
  · have e : ∀ k, w k * (2⁻¹ * ∑ p ∈ Finset.range n, ∑ q ∈ Finset.range n, ∑ r ∈ Finset.range n, ∑ s ∈ Finset.range n,
        G p q r s * Γk k p q r s) = 2⁻¹ * ∑ p ∈ Finset.range n, ∑ q ∈ Finset.range n, ∑ r ∈ Finset.range n,
          ∑ s ∈ Finset.range n, G p q r s * (w k * Γk k p q r s) := by
      intro k
      rw [mul_left_comm]
      congr 1
      simp only [Finset.mul_sum (a := w k)]
      refine Finset.sum_congr rfl fun p _ => Finset.sum_congr rfl fun q _ => Finset.sum_congr rfl fun r _ =>
        Finset.sum_congr rfl fun s _ => by ring
    simp only [e]
    rw [← Finset.mul_sum]
    congr 1
    refine Eq.trans ?_ (out2 _ _ _ _)
    refine Finset.sum_congr rfl fun p hp => Finset.sum_congr rfl fun q hq => ?_
    refine Eq.trans ?_ (out2 _ _ _ _)
    refine Finset.sum_congr rfl fun r hr => Finset.sum_congr rfl fun s hs => ?_
    rw [h2 p (Finset.mem_range.1 hp) q (Finset.mem_range.1 hq) r (Finset.mem_range.1 hr) s (Finset.mem_range.1 hs),
      Finset.mul_sum]

/-- The same object with other density matrices of fragment `f` in state `r`. -/
def Las.replaced (L : Las K) (f r : Nat) (d : Bool → Mat K) (D : Ten K) : Las K :=
  { L with dm1 := fun f' r' => if f' = f ∧ r' = r then d else L.dm1 f' r'
           dm2 := fun f' r' => if f' = f ∧ r' = r then D else L.dm2 f' r' }

theorem replaced_e0 (L : Las K) (f r : Nat) (d : Bool → Mat K) (D : Ten K) : (L.replaced f r d D).e0 = L.e0 := by
  simp only [Las.e0, Las.veffCore, Las.veffSum, Las.getJ, Las.getK, Las.dmCore, Las.replaced]

theorem replaced_h1eff (L : Las K) (f r : Nat) (d : Bool → Mat K) (D : Ten K) : (L.replaced f r d D).h1eff = L.h1eff := by
  funext p q
  simp only [Las.h1eff, Las.toCas, Las.veffCore, Las.veffSum, Las.getJ, Las.getK, Las.dmCore, Las.replaced]

theorem replaced_fr (L : Las K) (f r : Nat) (d : Bool → Mat K) (D : Ten K) :
    (L.replaced f r d D).fr r = fun f' => if f' = f then ⟨d, D⟩ else L.fr r f' := by
  funext f'
  by_cases e : f' = f
  · simp [Las.fr, Las.replaced, e]
  · simp [Las.fr, Las.replaced, e]

/-- `energy_elec` in terms of the density matrices over all orbitals. -/
theorem energyElec_eq (L : Las K) (h : Ok L) :
    L.energyElec = energy (L.ncore + L.ncas) (mo1 L.nao L.mo L.hcore) L.G (rdm1 L.ncore L.casdm1s)
      (rdm2 L.ncore L.casdm1s L.casdm2) := by
  have hsy := rdm1_symm L.ncore L.ncas _ (fun τ p hp q hq => casdm1s_symm L h τ p q hp hq)
  rw [spec_split _ _ _ _ _ _ hsy]
  unfold Las.energyElec
  simp only
  congr 1
  · unfold dot1
    rw [Finset.mul_sum, ← Finset.sum_add_distrib]
    refine Finset.sum_congr rfl fun σ _ => ?_
    rw [show (L.rdm1s false σ) = toAO (L.ncore + L.ncas) L.mo (rdm1 L.ncore L.casdm1s σ) from by
      funext μ ν; exact rdm1s_eq L σ μ ν, toAO_dot]
    simp only [Finset.mul_sum (a := (2⁻¹ : K)), ← Finset.sum_add_distrib]
    refine Finset.sum_congr rfl fun p _ => Finset.sum_congr rfl fun q _ => ?_
    rw [mo1_add, mo1_smul, veff_mo L h.g (L.ncore + L.ncas) _ (rdm1 L.ncore L.casdm1s) (fun τ μ ν => rdm1s_eq L τ μ ν) hsy σ,
      div_eq_inv_mul]
    ring
  · rw [div_eq_inv_mul]
    congr 1
    unfold dot2
    refine Finset.sum_congr rfl fun p hp => Finset.sum_congr rfl fun q hq => Finset.sum_congr rfl fun r hr =>
      Finset.sum_congr rfl fun s hs => ?_
    rw [Finset.mem_range] at hp hq hr hs
    rw [eriCas_eq L h p q r s hp hq hr hs]

theorem stateEnergy_eq (L : Las K) (h : Ok L) (two : (2 : K) ≠ 0) (r : Nat) :
    L.stateEnergy r = energy (L.ncore + L.ncas) (mo1 L.nao L.mo L.hcore) L.G (rdm1 L.ncore (L.stateCasdm1s r))
      (rdm2 L.ncore (L.stateCasdm1s r) (L.stateCasdm2 r)) := by
  rw [state_split L h r, spec_active L h two _ _ (fun σ p hp q hq => stateCasdm1s_symm L h r σ p q hp hq)]
  congr 2
  refine dot2_congr _ _ _ _ fun p hp q hq u hu v hv => cumulant_congr _ _ _ _ _ _ _ ?_
  rw [Finset.mem_range] at hp hq hu hv
  exact (stateCasdm2_eq L h r p q u v hp hq hu hv).symm
end Verif.LasEnergy

namespace Verif.Props
open Verif.LasEnergy
open Verif.PsEnergy (Mat Ten)
open Verif.Spec.LasEnergy
variable {K : Type} [Field K]

/-- **C121**. The energy of each state is the energy of the core and active electrons under the Hamiltonian of the molecule, with
the density matrices which `states_make_casdm1s` and `state_make_casdm2` return. -/
theorem C121_state_energy (L : Las K) (h : Ok L) (two : (2 : K) ≠ 0) (r : Nat) :
    L.stateEnergy r = energy (L.ncore + L.ncas) (mo1 L.nao L.mo L.hcore) (mo2 L.nao L.mo L.g)
      (rdm1 L.ncore (L.stateCasdm1s r)) (rdm2 L.ncore (L.stateCasdm1s r) (L.stateCasdm2 r)) :=
  stateEnergy_eq L h two r

/-- **C121**. The total energy is the energy under the Hamiltonian of the molecule, with the density matrices which
`make_casdm1s` and `make_casdm2` return, for all weights. -/
theorem C121_energy (L : Las K) (h : Ok L) :
    L.energyElec = energy (L.ncore + L.ncas) (mo1 L.nao L.mo L.hcore) (mo2 L.nao L.mo L.g)
      (rdm1 L.ncore L.casdm1s) (rdm2 L.ncore L.casdm1s L.casdm2) :=
  energyElec_eq L h

/-- **C121**. If the weights have sum one and the solvers of all fragments have the weights of the LASSCF object, then the total
energy is the weighted sum of the energies of the states. -/
theorem C121_average (L : Las K) (h : Ok L) (two : (2 : K) ≠ 0) (hw : ∑ r ∈ Finset.range L.nroots, L.w r = 1)
    (hb : ∀ f r, L.bw f r = L.w r) :
    L.energyElec = ∑ r ∈ Finset.range L.nroots, L.w r * L.stateEnergy r := by
  have hd : ∀ σ, ∀ p < L.ncas, ∀ q < L.ncas, L.casdm1s σ p q = ∑ k ∈ Finset.range L.nroots, L.w k * L.stateCasdm1s k σ p q :=
    fun σ p hp q hq => casdm1s_avg L σ p q hp hq
  have hD : ∀ p < L.ncas, ∀ q < L.ncas, ∀ r < L.ncas, ∀ s < L.ncas,
      L.casdm2 p q r s = ∑ k ∈ Finset.range L.nroots, L.w k * L.stateCasdm2 k p q r s := by
    intro p hp q hq r hr s hs
    rw [casdm2_eq L h hb p q r s hp hq hr hs]
    exact Finset.sum_congr rfl fun k _ => by rw [stateCasdm2_eq L h k p q r s hp hq hr hs]
  rw [energyElec_eq L h, energy_avg (L.ncore + L.ncas) L.nroots L.w _ _ _ (fun k => rdm1 L.ncore (L.stateCasdm1s k)) _
    (fun k => rdm2 L.ncore (L.stateCasdm1s k) (L.stateCasdm2 k))
    (fun σ p hp q hq => rdm1_avg L.ncore L.ncas L.nroots L.w hw _ _ hd σ p q hp hq)
    (fun p hp q hq r hr s hs => rdm2_avg L.ncore L.ncas L.nroots L.w hw _ _ hd _ _ hD p q r s hp hq hr hs)]
  exact Finset.sum_congr rfl fun k _ => by rw [stateEnergy_eq L h two k]

/-- **C121**. The effective Hamiltonian of fragment `f` in state `r` (`h1e_for_las` and `get_h2eff_slice`) is exact: for every
wave function of the fragment, with density matrices `d` and `D`, it gives the energy which state `r` has when this wave function
replaces that of the fragment, up to a constant which does not depend on the wave function. -/
theorem C121_fragment (L : Las K) (h : Ok L) (two : (2 : K) ≠ 0) (f r : Nat) :
    ∃ c : K, ∀ (d : Bool → Mat K) (D : Ten K), Verif.Spec.PsEnergy.SymDensity d →
      (L.replaced f r d D).stateEnergy r =
        Verif.Spec.PsEnergy.energy (L.sub.getD f 0) c (L.h1eFor f r) (L.h2effSlice f) d D := by
  refine ⟨Verif.PsEnergy.h0eff L.sub L.e0 (fun _ => L.h1eff) L.Ga (L.fr r) f, fun d D hd => ?_⟩
  have hok : Ok (L.replaced f r d D) := ⟨h.dims, h.g, h.h2, fun f' r' => by
    unfold Las.replaced
    by_cases e : f' = f ∧ r' = r
    · simp only [if_pos e]; exact hd
    · simp only [if_neg e]; exact h.d f' r'⟩
  have key := C54_projected two L.sub L.e0 (fun _ => L.h1eff) L.Ga (Ga_sym L h) (L.fr r) (fun f' => h.d f' r) f ⟨d, D⟩ hd
  have e1 := active_form (L.replaced f r d D) hok r
  rw [replaced_e0, replaced_h1eff, replaced_fr] at e1
  refine Eq.trans e1 (Eq.trans key ?_)
  · unfold Verif.Spec.PsEnergy.energy
    congr 1
    · congr 1
      refine Finset.sum_congr rfl fun σ _ => Finset.sum_congr rfl fun p hp => Finset.sum_congr rfl fun q hq => ?_
      rw [Finset.mem_range] at hp hq
      rw [h1eFor_eq L h two f r σ p q hp hq]
    · congr 1
      refine Finset.sum_congr rfl fun p hp => Finset.sum_congr rfl fun q hq => Finset.sum_congr rfl fun u hu =>
        Finset.sum_congr rfl fun v hv => ?_
      rw [Finset.mem_range] at hp hq hu hv
      rw [h2effSlice_eq L h f p q u v hp hq hu hv]
      rfl

/-- **C121**. `get_h2eff_slice` returns the integrals over the orbitals of the fragment. -/
theorem C121_slice (L : Las K) (h : Ok L) (f p q r s : Nat) (hp : p < L.sub.getD f 0) (hq : q < L.sub.getD f 0)
    (hr : r < L.sub.getD f 0) (hs : s < L.sub.getD f 0) :
    L.h2effSlice f p q r s = mo2 L.nao L.mo L.g (L.ncore + (L.sub.take f).sum + p) (L.ncore + (L.sub.take f).sum + q)
      (L.ncore + (L.sub.take f).sum + r) (L.ncore + (L.sub.take f).sum + s) := by
  rw [h2effSlice_eq L h f p q r s hp hq hr hs]
  simp only [Nat.add_assoc]

/-- **C121**. The density matrices in atomic orbitals of the states and of their average are those of the core and active
orbitals; if the weights have sum one, the average is the weighted sum of the density matrices of the states. -/
theorem C121_rdm1s (L : Las K) (σ : Bool) (μ ν : Nat) :
    (∀ r, L.stateRdm1s r σ μ ν = toAO (L.ncore + L.ncas) L.mo (rdm1 L.ncore (L.stateCasdm1s r) σ) μ ν) ∧
    L.rdm1s false σ μ ν = toAO (L.ncore + L.ncas) L.mo (rdm1 L.ncore L.casdm1s σ) μ ν ∧
    (∑ r ∈ Finset.range L.nroots, L.w r = 1 →
      L.rdm1s false σ μ ν = ∑ r ∈ Finset.range L.nroots, L.w r * L.stateRdm1s r σ μ ν) := by
  refine ⟨fun r => stateRdm1s_eq L r σ μ ν, rdm1s_eq L σ μ ν, fun hw => ?_⟩
  rw [rdm1s_eq]
  simp only [stateRdm1s_eq]
  unfold toAO
  have e' : ∀ k, L.w k * (∑ p ∈ Finset.range (L.ncore + L.ncas), ∑ q ∈ Finset.range (L.ncore + L.ncas),
      L.mo μ p * rdm1 L.ncore (L.stateCasdm1s k) σ p q * L.mo ν q) = ∑ p ∈ Finset.range (L.ncore + L.ncas),
        ∑ q ∈ Finset.range (L.ncore + L.ncas), L.w k * (L.mo μ p * rdm1 L.ncore (L.stateCasdm1s k) σ p q * L.mo ν q) := by
    intro k
    rw [Finset.mul_sum]
    exact Finset.sum_congr rfl fun p _ => Finset.mul_sum _ _ _
  simp only [e']
  refine Eq.trans ?_ (out2 _ _ _ _)
  refine Finset.sum_congr rfl fun p hp => Finset.sum_congr rfl fun q hq => ?_
  rw [rdm1_avg L.ncore L.ncas L.nroots L.w hw _ _ (fun σ p hp q hq => casdm1s_avg L σ p q hp hq) σ p q
    (Finset.mem_range.1 hp) (Finset.mem_range.1 hq), Finset.mul_sum, Finset.sum_mul]
  exact Finset.sum_congr rfl fun k _ => by ring

/-- **C121**. Without core orbitals, `get_veff ()` is the potential of the density matrix which `make_rdm1 ()` returns. -/
theorem C121_veff_default_partial (L : Las K) (h : L.ncore = 0) : L.veffDefault = L.veffSum (L.rdm1) := by
  unfold Las.veffDefault
  congr 1
  funext μ ν
  unfold Las.rdm1 Las.rdm1s Las.rdm1sSub
  simp [h]

/-- Three orbitals: one core orbital and two fragments with one active orbital each; two states. -/
def LasEnergy.demo : Las ℚ where
  nao := 3
  nmo := 3
  ncore := 1
  nroots := 2
  sub := [1, 1]
  w := fun r => if r = 0 then 3 / 4 else 1 / 4
  bw := fun _ r => if r = 0 then 3 / 4 else 1 / 4
  hcore := fun μ ν => if μ = ν then -5 else -1
  g := fun μ ν l k => (μ + ν + 1) * (l + k + 1)
  mo := fun μ p => if μ = p then 1 else 0
  h2 := fun i => ((i / 6 : Nat) + (1 + i / 3 % 2 : Nat) + 1) *
    ((1 + if i % 3 = 0 then 0 else 1) + (1 + if i % 3 = 2 then 1 else 0) + 1)
  dm1 := fun f r σ _ _ => if (f + r) % 2 = 0 then (if σ then 0 else 1) else (if σ then 1 else 0)
  dm2 := fun _ _ _ _ _ _ => 0

theorem LasEnergy.mo2_id (nao : Nat) (g : Ten K) (p q r s : Nat) (hp : p < nao) (hq : q < nao) (hr : r < nao) (hs : s < nao) :
    mo2 nao (fun μ p => if μ = p then 1 else 0) g p q r s = g p q r s := by
  unfold mo2
  simp [hp, hq, hr, hs]

theorem LasEnergy.demo_ok : Ok LasEnergy.demo where
  dims := by decide
  g := ⟨fun p q r s => by simp only [LasEnergy.demo]; ring, fun p q r s => by simp only [LasEnergy.demo]; ring,
    fun p q r s => by simp only [LasEnergy.demo]; ring⟩
  h2 := by
    intro p u v w hp hu hv hw
    have hp' : p < 3 := hp
    have hu' : u < 2 := hu
    have hv' : v < 2 := hv
    have e : mo2 LasEnergy.demo.nao LasEnergy.demo.mo LasEnergy.demo.g p (1 + u) (1 + v) (1 + w) =
        LasEnergy.demo.g p (1 + u) (1 + v) (1 + w) :=
      LasEnergy.mo2_id 3 LasEnergy.demo.g p (1 + u) (1 + v) (1 + w) hp' (by omega) (by omega) (by omega)
    refine Eq.trans ?_ e.symm
    have : w < 2 := by omega
    have hn : LasEnergy.demo.ncas = 2 := by decide
    rw [hn]
    interval_cases p <;> interval_cases u <;> interval_cases v <;> interval_cases w <;>
      first | omega | norm_num [LasEnergy.demo]
  d := by
    intro f r σ p q
    rfl

/-- **C121** fails for the default argument of `get_veff`: the density matrix counts the electrons of the core orbitals twice. -/
theorem C121_veff_default_violated :
    Ok LasEnergy.demo ∧ LasEnergy.demo.veffDefault 0 0 ≠ LasEnergy.demo.veffSum (LasEnergy.demo.rdm1) 0 0 ∧
    LasEnergy.demo.rdm1 true 0 0 = 4 ∧ LasEnergy.demo.rdm1 false 0 0 = 2 := by
  refine ⟨LasEnergy.demo_ok, ?_, ?_, ?_⟩
  all_goals
    norm_num [Las.veffDefault, Las.veffSum, Las.getJ, Las.getK, Las.rdm1, Las.rdm1s, Las.rdm1sSub, Las.dmCore, Las.moSlice,
      Las.casdm1sSub, LasEnergy.demo, Finset.sum_range_succ, List.range_succ]

example : Ok LasEnergy.demo ∧ (2 : ℚ) ≠ 0 ∧ (∑ r ∈ Finset.range LasEnergy.demo.nroots, LasEnergy.demo.w r = 1) ∧
    (∀ f r, LasEnergy.demo.bw f r = LasEnergy.demo.w r) ∧ LasEnergy.demo.casdm1s false 0 0 = 3 / 4 ∧
    LasEnergy.demo.sub.getD 1 0 = 1 := by
  refine ⟨LasEnergy.demo_ok, by norm_num, by norm_num [LasEnergy.demo, Finset.sum_range_succ], fun f r => rfl, ?_, rfl⟩
  norm_num [Las.casdm1s, Las.blockDiag, Las.casdm1sSub, LasEnergy.demo, Finset.sum_range_succ, List.range_succ,
    Verif.PsEnergy.ins, Verif.PsEnergy.lo, Verif.PsEnergy.hi]

end Verif.Props
