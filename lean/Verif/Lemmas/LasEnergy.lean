import Verif.Model.LasEnergy
import Verif.Spec.LasEnergy
import Verif.Props.PsEnergy
import Verif.Props.ProdRdm
import Mathlib.Algebra.BigOperators.Field
import Mathlib.Tactic.FieldSimp
/-!
# Lemmas for C121
-/
namespace Verif.LasEnergy
open Verif.PsEnergy (Mat Ten lo hi makeRdm1s makeRdm2 dot1 dot2 vpot FragDm)
open Verif.Spec.LasEnergy
open Verif.Spec.SymBlocks (spaceOf)
open Verif.Props.PsEnergy
variable {K : Type} [Field K]

theorem out2 (S T R : Finset Nat) (F : Nat → Nat → Nat → K) :
    (∑ a ∈ S, ∑ b ∈ T, ∑ r ∈ R, F a b r) = ∑ r ∈ R, ∑ a ∈ S, ∑ b ∈ T, F a b r :=
  (Finset.sum_congr rfl fun _ _ => Finset.sum_comm).trans Finset.sum_comm

theorem out22 (S R : Finset Nat) (F : Nat → Nat → Nat → Nat → K) :
    (∑ a ∈ S, ∑ b ∈ S, ∑ r ∈ R, ∑ s ∈ R, F a b r s) = ∑ r ∈ R, ∑ s ∈ R, ∑ a ∈ S, ∑ b ∈ S, F a b r s :=
  (out2 S S R _).trans (Finset.sum_congr rfl fun _ _ => out2 S S R _)

theorem out42 (S R : Finset Nat) (F : Nat → Nat → Nat → Nat → Nat → Nat → K) :
    (∑ a ∈ S, ∑ b ∈ S, ∑ c ∈ S, ∑ d ∈ S, ∑ r ∈ R, ∑ s ∈ R, F a b c d r s) =
      ∑ r ∈ R, ∑ s ∈ R, ∑ a ∈ S, ∑ b ∈ S, ∑ c ∈ S, ∑ d ∈ S, F a b c d r s :=
  (Finset.sum_congr rfl fun _ _ => Finset.sum_congr rfl fun _ _ => out22 S R _).trans (out22 S R _)

/-! ### Integrals -/

theorem mo2_sym (nao : Nat) (C : Mat K) (g : Ten K) (hg : EightFold g) : Verif.Spec.PsEnergy.Sym (mo2 nao C g) where
  pairs p q r s := by
    unfold mo2
    rw [sum4_pairs]
    refine Finset.sum_congr rfl fun a _ => Finset.sum_congr rfl fun b _ => Finset.sum_congr rfl fun c _ =>
      Finset.sum_congr rfl fun d _ => ?_
    rw [hg.pairs c d a b]
    ring
  flip p q r s := by
    unfold mo2
    rw [sum4_swap]
    refine Finset.sum_congr rfl fun a _ => Finset.sum_congr rfl fun b _ => Finset.sum_congr rfl fun c _ =>
      Finset.sum_congr rfl fun d _ => ?_
    rw [hg.bra b a d c, hg.ket a b d c]
    ring

theorem mo2_ket (nao : Nat) (C : Mat K) (g : Ten K) (hg : EightFold g) (p q r s : Nat) :
    mo2 nao C g p q r s = mo2 nao C g p q s r := by
  unfold mo2
  refine Finset.sum_congr rfl fun a _ => Finset.sum_congr rfl fun b _ => ?_
  rw [Finset.sum_comm]
  refine Finset.sum_congr rfl fun c _ => Finset.sum_congr rfl fun d _ => ?_
  rw [hg.ket a b d c]
  ring

theorem mo2_bra (nao : Nat) (C : Mat K) (g : Ten K) (hg : EightFold g) (p q r s : Nat) :
    mo2 nao C g p q r s = mo2 nao C g q p r s := by
  rw [(mo2_sym nao C g hg).pairs, mo2_ket nao C g hg, (mo2_sym nao C g hg).pairs]

/-- The hypotheses on the data of a LASCI object: dimensions, symmetric integrals and densities, packed integrals. -/
structure Ok (L : Las K) : Prop where
  dims : L.ncore + L.ncas ≤ L.nmo
  g : EightFold L.g
  h2 : Packed L.nmo L.ncore L.ncas L.h2 (mo2 L.nao L.mo L.g)
  d : ∀ f r, Verif.Spec.PsEnergy.SymDensity (L.dm1 f r)

/-- Integrals over the orbitals. -/
abbrev Las.G (L : Las K) : Ten K := mo2 L.nao L.mo L.g
/-- Integrals over the active orbitals. -/
abbrev Las.Ga (L : Las K) : Ten K := fun p q r s => L.G (L.ncore + p) (L.ncore + q) (L.ncore + r) (L.ncore + s)
/-- Density matrices of the fragments in state `r`. -/
abbrev Las.fr (L : Las K) (r : Nat) : Nat → FragDm K := fun f => ⟨L.dm1 f r, L.dm2 f r⟩

theorem Ga_sym (L : Las K) (h : Ok L) : Verif.Spec.PsEnergy.Sym L.Ga where
  pairs _ _ _ _ := (mo2_sym L.nao L.mo L.g h.g).pairs _ _ _ _
  flip _ _ _ _ := (mo2_sym L.nao L.mo L.g h.g).flip _ _ _ _

theorem stateCasdm1s_eq (L : Las K) (r : Nat) (σ : Bool) : L.stateCasdm1s r σ = makeRdm1s L.sub (L.fr r) σ := rfl

theorem packed_row (L : Las K) (h : Ok L) (p u v w : Nat) (hp : p < L.nmo) (hu : u < L.ncas) (hv : v < L.ncas)
    (hw : w < L.ncas) : Las.unpackTril (fun k => L.h2 ((p * L.ncas + u) * L.npair + k)) v w =
      L.G p (L.ncore + u) (L.ncore + v) (L.ncore + w) := by
  unfold Las.unpackTril Las.npair
  split
  · rename_i hvw
    exact h.h2 p u v w hp hu hv hvw
  · rename_i hvw
    exact (h.h2 p u w v hp hu hw (by omega)).trans (mo2_ket _ _ _ h.g _ _ _ _)

theorem eriCas_eq (L : Las K) (h : Ok L) (p q r s : Nat) (hp : p < L.ncas) (hq : q < L.ncas) (hr : r < L.ncas)
    (hs : s < L.ncas) : L.eriCas p q r s = L.Ga p q r s :=
  packed_row L h (L.ncore + p) q r s (by have := h.dims; omega) hq hr hs

theorem slice_bound (L : Las K) (f p : Nat) (hp : p < L.sub.getD f 0) : (L.sub.take f).sum + p < L.ncas := by
  have hf : f < L.sub.length := by
    by_contra hc
    simp [List.getD, List.getElem?_eq_none (Nat.le_of_not_lt hc)] at hp
  have h1 := List.sum_take_add_sum_drop (M := Nat) L.sub f
  rw [List.drop_eq_getElem_cons hf, List.sum_cons] at h1
  rw [List.getD_eq_getElem _ _ hf] at hp
  unfold Las.ncas
  omega

theorem h2effSlice_eq (L : Las K) (h : Ok L) (f p q r s : Nat) (hp : p < L.sub.getD f 0) (hq : q < L.sub.getD f 0)
    (hr : r < L.sub.getD f 0) (hs : s < L.sub.getD f 0) :
    L.h2effSlice f p q r s = L.Ga ((L.sub.take f).sum + p) ((L.sub.take f).sum + q) ((L.sub.take f).sum + r)
      ((L.sub.take f).sum + s) := by
  have hp' := slice_bound L f p hp
  have hq' := slice_bound L f q hq
  have hd := h.dims
  unfold Las.h2effSlice
  set i := (L.sub.take f).sum
  have hx : L.ncore * L.ncas + (max (i + p) (i + q) * L.ncas + min (i + p) (i + q)) =
      (L.ncore + max (i + p) (i + q)) * L.ncas + min (i + p) (i + q) := by ring
  simp only [hx]
  rw [packed_row L h _ _ _ _ (by omega) (by omega) (slice_bound L f r hr) (slice_bound L f s hs)]
  show L.G _ _ _ _ = L.G _ _ _ _
  rcases le_total p q with hpq | hpq
  · rw [max_eq_right (by omega), min_eq_left (by omega)]
    exact mo2_bra _ _ _ h.g _ _ _ _
  · rw [max_eq_left (by omega), min_eq_right (by omega)]

/-! ### From atomic orbitals to orbitals -/

theorem toAO_dot (nao n : Nat) (C X A : Mat K) :
    (∑ μ ∈ Finset.range nao, ∑ ν ∈ Finset.range nao, X μ ν * toAO n C A μ ν) =
      ∑ p ∈ Finset.range n, ∑ q ∈ Finset.range n, mo1 nao C X p q * A p q := by
  unfold toAO mo1
  simp only [Finset.mul_sum, Finset.sum_mul]
  rw [out22]
  refine Finset.sum_congr rfl fun a _ => Finset.sum_congr rfl fun b _ => Finset.sum_congr rfl fun c _ =>
      Finset.sum_congr rfl fun d _ => ?_
  ring

theorem mo1_J (nao n : Nat) (C A : Mat K) (g : Ten K) (p q : Nat) :
    mo1 nao C (fun μ ν => ∑ l ∈ Finset.range nao, ∑ k ∈ Finset.range nao, g μ ν l k * toAO n C A l k) p q =
      ∑ r ∈ Finset.range n, ∑ s ∈ Finset.range n, A r s * mo2 nao C g p q r s := by
  unfold toAO mo1 mo2
  simp only [Finset.mul_sum]
  rw [out42]
  refine Finset.sum_congr rfl fun a _ => Finset.sum_congr rfl fun b _ => Finset.sum_congr rfl fun c _ =>
      Finset.sum_congr rfl fun d _ => Finset.sum_congr rfl fun e _ => Finset.sum_congr rfl fun f _ => ?_
  ring

theorem mo1_K (nao n : Nat) (C A : Mat K) (g : Ten K) (p q : Nat) :
    mo1 nao C (fun μ ν => ∑ l ∈ Finset.range nao, ∑ k ∈ Finset.range nao, g μ l k ν * toAO n C A l k) p q =
      ∑ r ∈ Finset.range n, ∑ s ∈ Finset.range n, A r s * mo2 nao C g p r s q := by
  unfold toAO mo1 mo2
  simp only [Finset.mul_sum]
  rw [out42]
  refine Finset.sum_congr rfl fun a _ => Finset.sum_congr rfl fun b _ => Finset.sum_congr rfl fun c _ => ?_
  refine Finset.sum_comm.trans (Finset.sum_congr rfl fun d _ => ?_)
  refine Finset.sum_comm.trans (Finset.sum_congr rfl fun e _ => Finset.sum_congr rfl fun f _ => ?_)
  ring

theorem mo1_add (nao : Nat) (C X Y : Mat K) (p q : Nat) :
    mo1 nao C (fun μ ν => X μ ν + Y μ ν) p q = mo1 nao C X p q + mo1 nao C Y p q := by
  unfold mo1
  simp only [mul_add, Finset.sum_add_distrib]

theorem mo1_sub (nao : Nat) (C X Y : Mat K) (p q : Nat) :
    mo1 nao C (fun μ ν => X μ ν - Y μ ν) p q = mo1 nao C X p q - mo1 nao C Y p q := by
  unfold mo1
  simp only [mul_sub, Finset.sum_sub_distrib]

theorem mo1_smul (nao : Nat) (C X : Mat K) (c : K) (p q : Nat) :
    mo1 nao C (fun μ ν => X μ ν / c) p q = mo1 nao C X p q / c := by
  unfold mo1
  simp only [mul_div_assoc', Finset.sum_div]

/-- The potential of a density matrix, over the orbitals. -/
theorem veff_mo (L : Las K) (hg : EightFold L.g) (n : Nat) (dm A : Bool → Mat K)
    (hdm : ∀ σ μ ν, dm σ μ ν = toAO n L.mo (A σ) μ ν)
    (hA : ∀ σ, ∀ p ∈ Finset.range n, ∀ q ∈ Finset.range n, A σ p q = A σ q p) (σ : Bool) (p q : Nat) :
    mo1 L.nao L.mo (L.veffSpin dm σ) p q = vpot (Finset.range n) L.G A σ p q := by
  have hdm' : dm = fun σ => toAO n L.mo (A σ) := by funext σ μ ν; exact hdm σ μ ν
  subst hdm'
  unfold Las.veffSpin Las.getJ Las.getK vpot
  rw [mo1_sub, mo1_add, mo1_J, mo1_J, mo1_K]
  have hJ : ∀ τ, (∑ r ∈ Finset.range n, ∑ s ∈ Finset.range n, A τ r s * mo2 L.nao L.mo L.g p q r s) =
      ∑ r ∈ Finset.range n, ∑ s ∈ Finset.range n, A τ r s * L.G r s p q := fun τ =>
    Finset.sum_congr rfl fun r _ => Finset.sum_congr rfl fun s _ => by rw [(mo2_sym L.nao L.mo L.g hg).pairs]
  rw [hJ, hJ]
  have hK : (∑ r ∈ Finset.range n, ∑ s ∈ Finset.range n, A σ r s * mo2 L.nao L.mo L.g p r s q) =
      ∑ r ∈ Finset.range n, ∑ s ∈ Finset.range n, A σ r s * L.G p s r q := by
    rw [Finset.sum_comm]
    exact Finset.sum_congr rfl fun r hr => Finset.sum_congr rfl fun s hs => by rw [hA σ s hs r hr]
  rw [hK]
  cases σ
  · rfl
  · simp only [Bool.not_true]; rw [add_comm (∑ r ∈ Finset.range n, ∑ s ∈ Finset.range n, A false r s * L.G r s p q)]

/-! ### Core and active parts -/

def coreD (ncore : Nat) : Bool → Mat K := fun _ p q => if p < ncore ∧ p = q then 1 else 0
def actD (ncore : Nat) (d : Bool → Mat K) : Bool → Mat K := fun σ p q =>
  if ncore ≤ p ∧ ncore ≤ q then d σ (p - ncore) (q - ncore) else 0

theorem rdm1_split (ncore : Nat) (d : Bool → Mat K) (σ : Bool) (p q : Nat) :
    rdm1 ncore d σ p q = coreD ncore σ p q + actD ncore d σ p q := by
  unfold rdm1 coreD actD
  by_cases hp : p < ncore <;> by_cases hq : q < ncore
  · simp [hp, Nat.not_le.2 hp]
  · simp [hp, Nat.not_le.2 hp]
  · have hne : p ≠ q := by omega
    simp [hp, hq, hne]
  · simp [hp, hq, Nat.le_of_not_lt hp, Nat.le_of_not_lt hq]

theorem rdm2_split (ncore : Nat) (d : Bool → Mat K) (D : Ten K) (p q r s : Nat) :
    rdm2 ncore d D p q r s =
      (rdm1 ncore d false p q + rdm1 ncore d true p q) * (rdm1 ncore d false r s + rdm1 ncore d true r s) -
        (rdm1 ncore d false p s * rdm1 ncore d false r q + rdm1 ncore d true p s * rdm1 ncore d true r q) +
        if (ncore ≤ p ∧ ncore ≤ q) ∧ (ncore ≤ r ∧ ncore ≤ s) then
          Las.cumulant d D (p - ncore) (q - ncore) (r - ncore) (s - ncore) else 0 := by
  have key : ∀ x y, ¬ (x < ncore ↔ y < ncore) → ∀ σ, rdm1 ncore d σ x y = 0 := by
    intro x y hxy σ
    unfold rdm1
    have hne : x ≠ y := by rintro rfl; exact hxy Iff.rfl
    have hor : x < ncore ∨ y < ncore := by
      by_contra hc
      push Not at hc
      exact hxy ⟨fun h => absurd h (Nat.not_lt.2 hc.1), fun h => absurd h (Nat.not_lt.2 hc.2)⟩
    rw [if_pos hor, if_neg hne]
  have kc : ∀ x y, x < ncore → ∀ σ, rdm1 ncore d σ x y = if x = y then 1 else 0 := by
    intro x y hx σ
    unfold rdm1
    rw [if_pos (Or.inl hx)]
  have ka : ∀ x y, ¬ x < ncore → ¬ y < ncore → ∀ σ, rdm1 ncore d σ x y = d σ (x - ncore) (y - ncore) := by
    intro x y hx hy σ
    unfold rdm1
    rw [if_neg (by tauto)]
  unfold rdm2
  by_cases hp : p < ncore <;> by_cases hq : q < ncore <;> by_cases hr : r < ncore <;> by_cases hs : s < ncore
  all_goals
    simp only [← Nat.not_lt, hp, hq, hr, hs, not_true_eq_false, not_false_eq_true, false_and, and_false, true_and, and_true,
      if_true, if_false, decide_true, decide_false, and_self]
  all_goals
    first
    | (rw [kc p q hp, kc p q hp, kc r s hr, kc r s hr, kc p s hp, kc p s hp, kc r q hr, kc r q hr]; ring1)
    | (rw [ka p q hp hq, ka p q hp hq, ka r s hr hs, ka r s hr hs, ka p s hp hs, ka p s hp hs, ka r q hr hq, ka r q hr hq]
       unfold Las.cumulant; ring1)
    | (rw [kc p q hp, kc p q hp, ka r s hr hs, ka r s hr hs, key p s (by tauto), key p s (by tauto)]; ring1)
    | (rw [ka p q hp hq, ka p q hp hq, kc r s hr, kc r s hr, key p s (by tauto), key p s (by tauto)]; ring1)
    | (rw [key p q (by tauto), key p q (by tauto), kc p s hp, kc p s hp, ka r q hr hq, ka r q hr hq]; ring1)
    | (rw [key p q (by tauto), key p q (by tauto), ka p s hp hs, ka p s hp hs, kc r q hr, kc r q hr]; ring1)
    | (rw [key p q (by tauto), key p q (by tauto), key p s (by tauto), key p s (by tauto)]; ring1)
    | (rw [key p q (by tauto), key p q (by tauto), key r q (by tauto), key r q (by tauto)]; ring1)
    | (rw [key r s (by tauto), key r s (by tauto), key p s (by tauto), key p s (by tauto)]; ring1)
    | (rw [key r s (by tauto), key r s (by tauto), key r q (by tauto), key r q (by tauto)]; ring1)

theorem sum_act (n m : Nat) (F : Nat → K) (h : ∀ p < n, F p = 0) :
    (∑ p ∈ Finset.range (n + m), F p) = ∑ p ∈ Finset.range m, F (n + p) := by
  rw [Finset.sum_range_add, Finset.sum_eq_zero (fun p hp => h p (Finset.mem_range.1 hp)), zero_add]

theorem sum_act2 (n m : Nat) (F : Nat → Nat → K) (h : ∀ p q, ¬ (n ≤ p ∧ n ≤ q) → F p q = 0) :
    (∑ p ∈ Finset.range (n + m), ∑ q ∈ Finset.range (n + m), F p q) =
      ∑ p ∈ Finset.range m, ∑ q ∈ Finset.range m, F (n + p) (n + q) := by
  rw [sum_act n m _ fun p hp => Finset.sum_eq_zero fun q _ => h p q (by omega)]
  exact Finset.sum_congr rfl fun p _ => sum_act n m _ fun q hq => h _ q (by omega)

theorem dot1_act (n m : Nat) (X d : Bool → Mat K) :
    dot1 (Finset.range (n + m)) X (actD n d) = dot1 (Finset.range m) (fun σ p q => X σ (n + p) (n + q)) d := by
  unfold dot1
  refine Finset.sum_congr rfl fun σ _ => ?_
  rw [sum_act2 n m _ fun p q hpq => by unfold actD; rw [if_neg hpq, mul_zero]]
  refine Finset.sum_congr rfl fun p _ => Finset.sum_congr rfl fun q _ => ?_
  unfold actD
  rw [if_pos ⟨Nat.le_add_right _ _, Nat.le_add_right _ _⟩, Nat.add_sub_cancel_left, Nat.add_sub_cancel_left]

theorem vpot_act (n m : Nat) (G : Ten K) (d : Bool → Mat K) (σ : Bool) (p q : Nat) :
    vpot (Finset.range (n + m)) G (actD n d) σ (n + p) (n + q) =
      vpot (Finset.range m) (fun a b c e => G (n + a) (n + b) (n + c) (n + e)) d σ p q := by
  have key : ∀ τ (H : Nat → Nat → K), (∑ a ∈ Finset.range (n + m), ∑ b ∈ Finset.range (n + m), actD n d τ a b * H a b) =
      ∑ a ∈ Finset.range m, ∑ b ∈ Finset.range m, d τ a b * H (n + a) (n + b) := by
    intro τ H
    rw [sum_act2 n m _ fun p q hpq => by unfold actD; rw [if_neg hpq, zero_mul]]
    refine Finset.sum_congr rfl fun p _ => Finset.sum_congr rfl fun q _ => ?_
    unfold actD
    rw [if_pos ⟨Nat.le_add_right _ _, Nat.le_add_right _ _⟩, Nat.add_sub_cancel_left, Nat.add_sub_cancel_left]
  unfold vpot
  rw [key, key, key]

theorem coreD_symm (ncore : Nat) (σ : Bool) (p q : Nat) : (coreD ncore σ p q : K) = coreD ncore σ q p := by
  unfold coreD
  by_cases h : p = q
  · subst h; rfl
  · rw [if_neg (fun x => h x.2), if_neg (fun x => h x.2.symm)]

/-- Energy in terms of the potential and the cumulant. -/
theorem spec_split (n m : Nat) (h : Mat K) (G : Ten K) (d : Bool → Mat K) (D : Ten K)
    (hd : ∀ σ, ∀ p ∈ Finset.range (n + m), ∀ q ∈ Finset.range (n + m), rdm1 n d σ p q = rdm1 n d σ q p) :
    energy (n + m) h G (rdm1 n d) (rdm2 n d D) = dot1 (Finset.range (n + m)) (fun _ => h) (rdm1 n d) +
      2⁻¹ * dot1 (Finset.range (n + m)) (vpot (Finset.range (n + m)) G (rdm1 n d)) (rdm1 n d) +
      2⁻¹ * dot2 (Finset.range m) (fun a b c e => G (n + a) (n + b) (n + c) (n + e)) (Las.cumulant d D) := by
  unfold energy
  rw [vpot_dot _ _ _ _ hd]
  have hsum : (∑ p ∈ Finset.range (n + m), ∑ q ∈ Finset.range (n + m), ∑ r ∈ Finset.range (n + m), ∑ s ∈ Finset.range (n + m),
      G p q r s * rdm2 n d D p q r s) =
      (coul (Finset.range (n + m)) G (fun p q => rdm1 n d false p q + rdm1 n d true p q)
        (fun p q => rdm1 n d false p q + rdm1 n d true p q) -
        (exch (Finset.range (n + m)) G (rdm1 n d false) (rdm1 n d false) +
          exch (Finset.range (n + m)) G (rdm1 n d true) (rdm1 n d true))) +
      dot2 (Finset.range m) (fun a b c e => G (n + a) (n + b) (n + c) (n + e)) (Las.cumulant d D) := by
    have h2 : dot2 (Finset.range m) (fun a b c e => G (n + a) (n + b) (n + c) (n + e)) (Las.cumulant d D) =
        ∑ p ∈ Finset.range (n + m), ∑ q ∈ Finset.range (n + m), ∑ r ∈ Finset.range (n + m), ∑ s ∈ Finset.range (n + m),
          G p q r s * if (n ≤ p ∧ n ≤ q) ∧ (n ≤ r ∧ n ≤ s) then Las.cumulant d D (p - n) (q - n) (r - n) (s - n) else 0 := by
      rw [sum_act2 n m _ fun p q hpq => Finset.sum_eq_zero fun r _ => Finset.sum_eq_zero fun s _ => by
        rw [if_neg (fun x => hpq x.1), mul_zero]]
      unfold dot2
      refine Finset.sum_congr rfl fun p _ => Finset.sum_congr rfl fun q _ => ?_
      rw [sum_act2 n m _ fun r s hrs => by rw [if_neg (fun x => hrs x.2), mul_zero]]
      refine Finset.sum_congr rfl fun r _ => Finset.sum_congr rfl fun s _ => ?_
      rw [if_pos (by omega)]
      simp only [Nat.add_sub_cancel_left]
    rw [h2]
    unfold coul exch
    simp only [← Finset.sum_add_distrib, ← Finset.sum_sub_distrib]
    refine Finset.sum_congr rfl fun p _ => Finset.sum_congr rfl fun q hq => Finset.sum_congr rfl fun r hr =>
      Finset.sum_congr rfl fun s _ => ?_
    rw [rdm2_split, hd false r hr q hq, hd true r hr q hq]
    ring
  rw [hsum]
  unfold dot1
  ring

/-- The interaction energy is symmetric and bilinear. -/
theorem inter_split (T : Finset Nat) (G : Ten K) (hs : Verif.Spec.PsEnergy.Sym G) (a b : Bool → Mat K)
    (ha : ∀ σ, ∀ p ∈ T, ∀ q ∈ T, a σ p q = a σ q p) (hb : ∀ σ, ∀ p ∈ T, ∀ q ∈ T, b σ p q = b σ q p) :
    dot1 T (vpot T G fun σ p q => a σ p q + b σ p q) (fun σ p q => a σ p q + b σ p q) =
      dot1 T (vpot T G a) a + 2 * dot1 T (vpot T G a) b + dot1 T (vpot T G b) b := by
  have hba : dot1 T (vpot T G b) a = dot1 T (vpot T G a) b := by
    rw [vpot_dot _ _ _ _ hb, vpot_dot _ _ _ _ ha, coul_comm T G hs, exch_comm T G hs (b false), exch_comm T G hs (b true)]
  have h1 : dot1 T (vpot T G fun σ p q => a σ p q + b σ p q) (fun σ p q => a σ p q + b σ p q) =
      dot1 T (fun σ p q => vpot T G a σ p q + vpot T G b σ p q) (fun σ p q => a σ p q + b σ p q) :=
    dot1_congr _ _ _ _ _ fun σ p _ q _ => by rw [vpot_add]
  rw [h1, dot1_add, dot1_comm, dot1_add, dot1_comm _ _ (fun σ p q => a σ p q + b σ p q), dot1_add,
    dot1_comm _ a, dot1_comm _ b, dot1_comm _ a, dot1_comm _ b, hba]
  ring

/-! ### The core -/

theorem core_toAO (n m : Nat) (C : Mat K) (σ : Bool) (μ ν : Nat) :
    (∑ i ∈ Finset.range n, C μ i * C ν i) = toAO (n + m) C (coreD n σ) μ ν := by
  unfold toAO
  have h1 : ∀ p, (∑ q ∈ Finset.range (n + m), C μ p * coreD n σ p q * C ν q) =
      if p < n then C μ p * C ν p else 0 := by
    intro p
    by_cases hp : p < n
    · rw [if_pos hp, Finset.sum_eq_single p]
      · simp [coreD, hp]
      · intro q _ hq
        simp [coreD, Ne.symm hq]
      · intro h
        exact absurd (Finset.mem_range.2 (by omega)) h
    · rw [if_neg hp]
      exact Finset.sum_eq_zero fun q _ => by simp [coreD, hp]
  rw [Finset.sum_congr rfl fun p _ => h1 p, Finset.sum_range_add]
  rw [Finset.sum_congr rfl fun p hp => if_pos (Finset.mem_range.1 hp)]
  rw [Finset.sum_eq_zero (s := Finset.range m) fun p _ => if_neg (by omega), add_zero]

theorem act_toAO (n m : Nat) (C : Mat K) (d : Bool → Mat K) (σ : Bool) (μ ν : Nat) :
    (∑ p ∈ Finset.range m, C μ (n + p) * ∑ q ∈ Finset.range m, d σ p q * C ν (n + q)) = toAO (n + m) C (actD n d σ) μ ν := by
  unfold toAO
  rw [sum_act2 n m _ fun p q hpq => by unfold actD; rw [if_neg hpq, mul_zero, zero_mul]]
  refine Finset.sum_congr rfl fun p _ => ?_
  rw [Finset.mul_sum]
  refine Finset.sum_congr rfl fun q _ => ?_
  unfold actD
  rw [if_pos ⟨Nat.le_add_right _ _, Nat.le_add_right _ _⟩, Nat.add_sub_cancel_left, Nat.add_sub_cancel_left, mul_assoc]

theorem toAO_add (n : Nat) (C A B : Mat K) (μ ν : Nat) :
    toAO n C (fun p q => A p q + B p q) μ ν = toAO n C A μ ν + toAO n C B μ ν := by
  unfold toAO
  simp only [mul_add, add_mul, Finset.sum_add_distrib]

theorem toAO_congr (n : Nat) (C A B : Mat K) (h : ∀ p < n, ∀ q < n, A p q = B p q) (μ ν : Nat) :
    toAO n C A μ ν = toAO n C B μ ν :=
  Finset.sum_congr rfl fun p hp => Finset.sum_congr rfl fun q hq => by
    rw [h p (Finset.mem_range.1 hp) q (Finset.mem_range.1 hq)]

theorem veffCore_eq (L : Las K) (two : (2 : K) ≠ 0) (σ : Bool) (μ ν : Nat) :
    L.veffCore μ ν = L.veffSpin (fun _ => L.dmCore) σ μ ν := by
  have hJ : L.getJ (fun μ ν => 2 * L.dmCore μ ν) μ ν = 2 * L.getJ L.dmCore μ ν := by
    unfold Las.getJ
    simp only [Finset.mul_sum]
    exact Finset.sum_congr rfl fun _ _ => Finset.sum_congr rfl fun _ _ => by ring
  have hK : L.getK (fun μ ν => 2 * L.dmCore μ ν) μ ν = 2 * L.getK L.dmCore μ ν := by
    unfold Las.getK
    simp only [Finset.mul_sum]
    exact Finset.sum_congr rfl fun _ _ => Finset.sum_congr rfl fun _ _ => by ring
  unfold Las.veffCore Las.veffSum Las.veffSpin
  rw [hJ, hK]
  field_simp
  ring

theorem toCas_eq (L : Las K) (A : Mat K) (p q : Nat) : L.toCas A p q = mo1 L.nao L.mo A (L.ncore + p) (L.ncore + q) := by
  unfold Las.toCas mo1
  simp only [Finset.sum_mul]
  rw [Finset.sum_comm]
  exact Finset.sum_congr rfl fun _ _ => Finset.sum_congr rfl fun _ _ => by ring

theorem veffCore_mo (L : Las K) (h : Ok L) (two : (2 : K) ≠ 0) (σ : Bool) (p q : Nat) :
    mo1 L.nao L.mo L.veffCore p q = vpot (Finset.range (L.ncore + L.ncas)) L.G (coreD L.ncore) σ p q := by
  have h1 : L.veffCore = L.veffSpin (fun _ => L.dmCore) σ := by funext μ ν; exact veffCore_eq L two σ μ ν
  rw [h1]
  exact veff_mo L h.g (L.ncore + L.ncas) _ _ (fun τ μ ν => core_toAO L.ncore L.ncas L.mo τ μ ν)
    (fun τ p _ q _ => coreD_symm _ _ _ _) σ p q

theorem h1eff_mo (L : Las K) (h : Ok L) (two : (2 : K) ≠ 0) (σ : Bool) (p q : Nat) :
    L.h1eff p q = mo1 L.nao L.mo L.hcore (L.ncore + p) (L.ncore + q) +
      vpot (Finset.range (L.ncore + L.ncas)) L.G (coreD L.ncore) σ (L.ncore + p) (L.ncore + q) := by
  unfold Las.h1eff
  rw [toCas_eq, mo1_add, veffCore_mo L h two σ]

theorem e0_eq (L : Las K) (h : Ok L) (two : (2 : K) ≠ 0) :
    L.e0 = dot1 (Finset.range (L.ncore + L.ncas)) (fun _ => mo1 L.nao L.mo L.hcore) (coreD L.ncore) +
      2⁻¹ * dot1 (Finset.range (L.ncore + L.ncas)) (vpot (Finset.range (L.ncore + L.ncas)) L.G (coreD L.ncore))
        (coreD L.ncore) := by
  have h1 : (∑ μ ∈ Finset.range L.nao, ∑ i ∈ Finset.range L.ncore,
      (∑ ν ∈ Finset.range L.nao, ((L.hcore μ ν + L.veffCore μ ν) - L.veffCore μ ν / 2) * L.mo ν i) * L.mo μ i) =
      ∑ μ ∈ Finset.range L.nao, ∑ ν ∈ Finset.range L.nao, (L.hcore μ ν + L.veffCore μ ν / 2) * L.dmCore μ ν := by
    refine Finset.sum_congr rfl fun μ _ => ?_
    unfold Las.dmCore
    simp only [Finset.sum_mul, Finset.mul_sum]
    rw [Finset.sum_comm]
    refine Finset.sum_congr rfl fun ν _ => Finset.sum_congr rfl fun i _ => ?_
    have : L.hcore μ ν + L.veffCore μ ν - L.veffCore μ ν / 2 = L.hcore μ ν + L.veffCore μ ν / 2 := by
      field_simp
      ring
    rw [this]
    ring
  have h2 : ∀ σ, (∑ μ ∈ Finset.range L.nao, ∑ ν ∈ Finset.range L.nao, (L.hcore μ ν + L.veffCore μ ν / 2) * L.dmCore μ ν) =
      ∑ p ∈ Finset.range (L.ncore + L.ncas), ∑ q ∈ Finset.range (L.ncore + L.ncas),
        (mo1 L.nao L.mo L.hcore p q + 2⁻¹ * vpot (Finset.range (L.ncore + L.ncas)) L.G (coreD L.ncore) σ p q) *
          coreD L.ncore σ p q := by
    intro σ
    have hc : ∀ μ ν, L.dmCore μ ν = toAO (L.ncore + L.ncas) L.mo (coreD L.ncore σ) μ ν := fun μ ν =>
      core_toAO L.ncore L.ncas L.mo σ μ ν
    simp only [hc]
    rw [toAO_dot]
    refine Finset.sum_congr rfl fun p _ => Finset.sum_congr rfl fun q _ => ?_
    rw [mo1_add, mo1_smul, veffCore_mo L h two σ, div_eq_inv_mul]
  unfold Las.e0
  rw [h1]
  unfold dot1
  rw [Fintype.sum_bool, Fintype.sum_bool, two_mul]
  have e : ∀ σ, (∑ p ∈ Finset.range (L.ncore + L.ncas), ∑ q ∈ Finset.range (L.ncore + L.ncas),
        (mo1 L.nao L.mo L.hcore p q + 2⁻¹ * vpot (Finset.range (L.ncore + L.ncas)) L.G (coreD L.ncore) σ p q) *
          coreD L.ncore σ p q) =
      (∑ p ∈ Finset.range (L.ncore + L.ncas), ∑ q ∈ Finset.range (L.ncore + L.ncas),
        mo1 L.nao L.mo L.hcore p q * coreD L.ncore σ p q) +
      2⁻¹ * ∑ p ∈ Finset.range (L.ncore + L.ncas), ∑ q ∈ Finset.range (L.ncore + L.ncas),
        vpot (Finset.range (L.ncore + L.ncas)) L.G (coreD L.ncore) σ p q * coreD L.ncore σ p q := by
    intro σ
    simp only [Finset.mul_sum, ← Finset.sum_add_distrib]
    exact Finset.sum_congr rfl fun _ _ => Finset.sum_congr rfl fun _ _ => by ring
  conv_lhs => rw [h2 true, e true]
  have h3 := (h2 true).symm.trans (h2 false)
  rw [e true, e false] at h3
  linear_combination h3

/-! ### Product-state density matrices -/

theorem cumulant_block (L : Las K) (h : Ok L) (k : Nat) (p q r s : Nat) (hp : p < L.ncas) (hq : q < L.ncas) (hr : r < L.ncas)
    (hs : s < L.ncas) :
    Las.cumulant (L.stateCasdm1s k) (makeRdm2 L.sub (L.fr k)) p q r s =
      if spaceOf L.sub p = spaceOf L.sub q ∧ spaceOf L.sub q = spaceOf L.sub r ∧ spaceOf L.sub r = spaceOf L.sub s then
        Las.cumulant (L.dm1 (spaceOf L.sub p) k) (L.dm2 (spaceOf L.sub p) k) (p - lo L.sub (spaceOf L.sub p))
          (q - lo L.sub (spaceOf L.sub p)) (r - lo L.sub (spaceOf L.sub p)) (s - lo L.sub (spaceOf L.sub p)) else 0 := by
  unfold Las.cumulant
  have d1 := fun σ (x y : Nat) (hx : x < L.sub.sum) (hy : y < L.sub.sum) => makeRdm1s_eq L.sub (L.fr k) σ x y hx hy
  have hsym := fun f σ => h.d f k σ
  rw [makeRdm2_eq L.sub (L.fr k) p q r s hp hq hr hs]
  simp only [stateCasdm1s_eq, d1 _ p q hp hq, d1 _ r s hr hs, d1 _ p s hp hs, d1 _ r q hr hq, d1 _ q r hq hr]
  generalize spaceOf L.sub p = fp
  generalize spaceOf L.sub q = fq
  generalize spaceOf L.sub r = f3
  generalize spaceOf L.sub s = fs
  by_cases h1 : fp = fq
  · subst h1
    by_cases h2 : f3 = fs
    · subst h2
      by_cases h3 : fp = f3
      · subst h3
        simp only [true_and, if_true]
      · have h3' : ¬ f3 = fp := fun x => h3 x.symm
        simp only [h3, h3', and_self, and_true, true_and, if_true, if_false, false_and]
        ring
    · by_cases h3 : fp = f3
      · subst h3
        simp only [h2, and_self, and_true, and_false, true_and, if_true, if_false, false_and]
        ring
      · have h3' : ¬ f3 = fp := fun x => h3 x.symm
        simp only [h2, h3, h3', and_self, and_true, and_false, true_and, if_true, if_false, false_and]
        ring
  · by_cases h4 : fp = fs
    · subst h4
      by_cases h5 : fq = f3
      · subst h5
        simp only [h1, and_self, and_true, and_false, true_and, if_true, if_false, false_and]
        linear_combination
          L.dm1 fp k false (p - lo L.sub fp) (s - lo L.sub fp) * hsym fq false (r - lo L.sub fq) (q - lo L.sub fq) +
          L.dm1 fp k true (p - lo L.sub fp) (s - lo L.sub fp) * hsym fq true (r - lo L.sub fq) (q - lo L.sub fq)
      · have h5' : ¬ f3 = fq := fun x => h5 x.symm
        simp only [h1, h5, h5', and_self, and_true, and_false, true_and, if_true, if_false, false_and]
        ring
    · simp only [h1, h4, and_self, and_true, and_false, true_and, if_true, if_false, false_and]
      ring

open Verif.ProdRdm (assembled stepState_pair stepAvg_pair arr4)
open Verif.Spec.ProdRdm (index)

theorem locate (sub : List Nat) (p : Nat) (hp : p < sub.sum) :
    Spec.ProdRdm.Exists sub (spaceOf sub p, p - lo sub (spaceOf sub p)) ∧ index sub (spaceOf sub p, p - lo sub (spaceOf sub p)) = p := by
  have h := (ins_iff sub p hp (spaceOf sub p)).2 rfl
  unfold PsEnergy.ins PsEnergy.hi at h
  simp only [Bool.and_eq_true, decide_eq_true_eq] at h
  unfold Spec.ProdRdm.Exists index
  refine ⟨by simp only; omega, ?_⟩
  show lo sub (spaceOf sub p) + (p - lo sub (spaceOf sub p)) = p
  omega

/-- The two-body density matrix of the product state, by fragment and orbital. -/
def prod2 (L : Las K) (k : Nat) (p q r u : Nat × Nat) : K :=
  if p.1 = q.1 ∧ q.1 = r.1 ∧ r.1 = u.1 then L.dm2 p.1 k p.2 q.2 r.2 u.2
  else if p.1 = q.1 ∧ r.1 = u.1 then
    (L.dm1 p.1 k false p.2 q.2 + L.dm1 p.1 k true p.2 q.2) * (L.dm1 r.1 k false r.2 u.2 + L.dm1 r.1 k true r.2 u.2)
  else if p.1 = u.1 ∧ q.1 = r.1 then
    -(L.dm1 p.1 k false p.2 u.2 * L.dm1 q.1 k false q.2 r.2 + L.dm1 p.1 k true p.2 u.2 * L.dm1 q.1 k true q.2 r.2)
  else 0

theorem prod2_makeRdm2 (L : Las K) (k p q r u : Nat) (hp : p < L.ncas) (hq : q < L.ncas) (hr : r < L.ncas) (hu : u < L.ncas) :
    makeRdm2 L.sub (L.fr k) p q r u = prod2 L k (spaceOf L.sub p, p - lo L.sub (spaceOf L.sub p))
      (spaceOf L.sub q, q - lo L.sub (spaceOf L.sub q)) (spaceOf L.sub r, r - lo L.sub (spaceOf L.sub r))
      (spaceOf L.sub u, u - lo L.sub (spaceOf L.sub u)) := by
  rw [makeRdm2_eq L.sub (L.fr k) p q r u hp hq hr hu]
  rw [makeRdm1s_eq _ _ _ p q hp hq, makeRdm1s_eq _ _ _ p q hp hq, makeRdm1s_eq _ _ _ r u hr hu, makeRdm1s_eq _ _ _ r u hr hu,
    makeRdm1s_eq _ _ _ p u hp hu, makeRdm1s_eq _ _ _ p u hp hu, makeRdm1s_eq _ _ _ q r hq hr, makeRdm1s_eq _ _ _ q r hq hr]
  unfold prod2
  simp only
  generalize spaceOf L.sub p = fp
  generalize spaceOf L.sub q = fq
  generalize spaceOf L.sub r = f3
  generalize spaceOf L.sub u = fu
  split
  · rename_i h
    obtain ⟨rfl, rfl, rfl⟩ := h
    rfl
  · split
    · rename_i h
      obtain ⟨rfl, rfl⟩ := h
      simp only [if_true]
    · split
      · rename_i h
        obtain ⟨rfl, rfl⟩ := h
        simp only [if_true]
      · rfl

theorem prod2_unbalanced (L : Las K) (k : Nat) (p q r u : Nat × Nat)
    (h : ¬(p.1 = q.1 ∧ r.1 = u.1) ∧ ¬(p.1 = u.1 ∧ r.1 = q.1)) : prod2 L k p q r u = 0 := by
  unfold prod2
  rw [if_neg (fun x => h.1 ⟨x.1, x.2.2⟩), if_neg h.1, if_neg (fun x => h.2 ⟨x.1, x.2.symm⟩)]

theorem prod2_diag (L : Las K) (k f a b c d : Nat) : prod2 L k (f, a) (f, b) (f, c) (f, d) = L.dm2 f k a b c d := by
  simp [prod2]

theorem prod2_coul (L : Las K) (k f g a b c d : Nat) (h : f ≠ g) : prod2 L k (f, a) (f, b) (g, c) (g, d) =
    (L.dm1 f k false a b + L.dm1 f k true a b) * (L.dm1 g k false c d + L.dm1 g k true c d) := by
  simp [prod2, h]

theorem prod2_exch (L : Las K) (k f g a b c d : Nat) (h : f ≠ g) : prod2 L k (f, a) (g, b) (g, c) (f, d) =
    -(L.dm1 f k false a d * L.dm1 g k false b c + L.dm1 f k true a d * L.dm1 g k true b c) := by
  simp [prod2, h]

theorem stateCasdm2_eq (L : Las K) (h : Ok L) (k p q r u : Nat) (hp : p < L.ncas) (hq : q < L.ncas) (hr : r < L.ncas)
    (hu : u < L.ncas) : L.stateCasdm2 k p q r u = makeRdm2 L.sub (L.fr k) p q r u := by
  rw [prod2_makeRdm2 L k p q r u hp hq hr hu]
  have lp := locate L.sub p hp
  have lq := locate L.sub q hq
  have lr := locate L.sub r hr
  have lu := locate L.sub u hu
  unfold Las.stateCasdm2 Verif.ProdRdm.Frags.stateMakeCasdm2
  have key := assembled L.frags (fun f => arr4 (L.dm2 f k)) _ _ _ (stepState_pair L.frags k) (prod2 L k)
    (prod2_unbalanced L k) (prod2_diag L k)
    (fun f g hfg a b c d => prod2_coul L k f g a b c d (Nat.ne_of_lt hfg))
    (fun f g hfg a b c d => (prod2_coul L k g f a b c d (Nat.ne_of_gt hfg)).trans (by
      simp only [Verif.ProdRdm.Frags.sf, Las.frags]; ring))
    (fun f g hfg a b c d => (prod2_exch L k f g a b c d (Nat.ne_of_lt hfg)).trans (by
      simp only [Las.frags]; rw [h.d g k false c b, h.d g k true c b]))
    (fun f g hfg a b c d => (prod2_exch L k g f a b c d (Nat.ne_of_gt hfg)).trans (by
      simp only [Las.frags]; rw [h.d g k false d a, h.d g k true d a]; ring))
    _ _ _ _ lp.1 lq.1 lr.1 lu.1
  simp only [show L.frags.ncas = L.sub from rfl, lp.2, lq.2, lr.2, lu.2] at key
  exact key

theorem casdm2_eq (L : Las K) (h : Ok L) (hw : ∀ f r, L.bw f r = L.w r) (p q r u : Nat) (hp : p < L.ncas) (hq : q < L.ncas)
    (hr : r < L.ncas) (hu : u < L.ncas) :
    L.casdm2 p q r u = ∑ k ∈ Finset.range L.nroots, L.w k * makeRdm2 L.sub (L.fr k) p q r u := by
  rw [Finset.sum_congr rfl fun k _ => by rw [prod2_makeRdm2 L k p q r u hp hq hr hu]]
  have lp := locate L.sub p hp
  have lq := locate L.sub q hq
  have lr := locate L.sub r hr
  have lu := locate L.sub u hu
  unfold Las.casdm2 Verif.ProdRdm.Frags.makeCasdm2
  have key := assembled L.frags
    (fun f => arr4 fun a b c d => ∑ r ∈ Finset.range L.nroots, L.dm2 f r a b c d * L.bw f r) _ _ _ (stepAvg_pair L.frags)
    (fun p q r u => ∑ k ∈ Finset.range L.nroots, L.w k * prod2 L k p q r u)
    (fun p q r u hz => Finset.sum_eq_zero fun k _ => by rw [prod2_unbalanced L k p q r u hz, mul_zero])
    (fun f a b c d => Finset.sum_congr rfl fun k _ => by rw [prod2_diag, hw, mul_comm])
    (fun f g hfg a b c d => Finset.sum_congr rfl fun k _ => by
      rw [prod2_coul L k f g a b c d (Nat.ne_of_lt hfg)]
      simp only [Verif.ProdRdm.Frags.sf, Las.frags]; ring)
    (fun f g hfg a b c d => Finset.sum_congr rfl fun k _ => by
      rw [prod2_coul L k g f a b c d (Nat.ne_of_gt hfg)]
      simp only [Verif.ProdRdm.Frags.sf, Las.frags]; ring)
    (fun f g hfg a b c d => by
      rw [← Finset.sum_neg_distrib]
      refine Finset.sum_congr rfl fun k _ => ?_
      rw [prod2_exch L k f g a b c d (Nat.ne_of_lt hfg)]
      simp only [Las.frags]; rw [h.d g k false c b, h.d g k true c b]; ring)
    (fun f g hfg a b c d => by
      rw [← Finset.sum_neg_distrib]
      refine Finset.sum_congr rfl fun k _ => ?_
      rw [prod2_exch L k g f a b c d (Nat.ne_of_gt hfg)]
      simp only [Las.frags]; rw [h.d g k false d a, h.d g k true d a]; ring)
    _ _ _ _ lp.1 lq.1 lr.1 lu.1
  simp only [show L.frags.ncas = L.sub from rfl, lp.2, lq.2, lr.2, lu.2] at key
  exact key

/-! ### Density matrices in atomic orbitals -/

theorem moSlice_eq (L : Las K) (f μ a : Nat) : L.moSlice f μ a = L.mo μ (L.ncore + (lo L.sub f + a)) := by
  have key : ∀ (l : List Nat) (m : Mat K) (a : Nat),
      l.foldl (fun m offs => fun μ a => m μ (offs + a)) m μ a = m μ (l.sum + a) := by
    intro l
    induction l with
    | nil => intro m a; simp
    | cons x t ih =>
      intro m a
      rw [List.foldl_cons, ih, List.sum_cons, Nat.add_assoc]
  exact key _ _ _

theorem sum_Ico (a n : Nat) (F : Nat → K) : (∑ p ∈ Finset.Ico a (a + n), F p) = ∑ p ∈ Finset.range n, F (a + p) := by
  rw [Finset.sum_Ico_eq_sum_range, Nat.add_sub_cancel_left]

/-- A sum over fragments of sums over the orbitals of the fragment. -/
theorem sum_frags2 (sub : List Nat) (F : Nat → Nat → K) :
    (∑ f ∈ Finset.range sub.length, ∑ a ∈ Finset.range (sub.getD f 0), ∑ b ∈ Finset.range (sub.getD f 0),
      F (lo sub f + a) (lo sub f + b)) =
      ∑ p ∈ Finset.range sub.sum, ∑ q ∈ Finset.range sub.sum, if spaceOf sub p = spaceOf sub q then F p q else 0 := by
  have h1 : ∀ f, (∑ a ∈ Finset.range (sub.getD f 0), ∑ b ∈ Finset.range (sub.getD f 0), F (lo sub f + a) (lo sub f + b)) =
      ∑ p ∈ Finset.range sub.sum, ∑ q ∈ Finset.range sub.sum, if spaceOf sub p = f ∧ spaceOf sub q = f then F p q else 0 := by
    intro f
    rw [← sum_slice]
    unfold PsEnergy.hi
    rw [sum_Ico]
    exact Finset.sum_congr rfl fun a _ => (sum_Ico _ _ _).symm
  rw [Finset.sum_congr rfl fun f _ => h1 f, Finset.sum_comm]
  refine Finset.sum_congr rfl fun p hp => ?_
  rw [Finset.sum_comm]
  refine Finset.sum_congr rfl fun q _ => ?_
  have hl := spaceOf_lt sub p (Finset.mem_range.1 hp)
  rw [Finset.sum_eq_single (spaceOf sub p)]
  · by_cases h : spaceOf sub p = spaceOf sub q
    · rw [if_pos h, if_pos ⟨rfl, h.symm⟩]
    · rw [if_neg h, if_neg (fun x => h x.2.symm)]
  · intro f _ hf
    rw [if_neg (fun x => hf x.1.symm)]
  · intro h
    exact absurd (Finset.mem_range.2 hl) h

theorem casdm1s_entry (L : Las K) (σ : Bool) (p q : Nat) (hp : p < L.ncas) (hq : q < L.ncas) :
    L.casdm1s σ p q = if spaceOf L.sub p = spaceOf L.sub q then
      L.casdm1sSub (spaceOf L.sub p) σ (p - lo L.sub (spaceOf L.sub p)) (q - lo L.sub (spaceOf L.sub p)) else 0 :=
  makeRdm1s_eq L.sub (fun f => ⟨fun σ => L.casdm1sSub f σ, fun _ _ _ _ => 0⟩) σ p q hp hq

theorem casdm1s_avg (L : Las K) (σ : Bool) (p q : Nat) (hp : p < L.ncas) (hq : q < L.ncas) :
    L.casdm1s σ p q = ∑ r ∈ Finset.range L.nroots, L.w r * L.stateCasdm1s r σ p q := by
  rw [casdm1s_entry L σ p q hp hq]
  split
  · rename_i h
    refine Finset.sum_congr rfl fun r _ => ?_
    rw [stateCasdm1s_eq, makeRdm1s_eq _ _ _ p q hp hq, if_pos h, mul_comm]
  · rename_i h
    refine (Finset.sum_eq_zero fun r _ => ?_).symm
    rw [stateCasdm1s_eq, makeRdm1s_eq _ _ _ p q hp hq, if_neg h, mul_zero]

theorem stateCasdm1s_symm (L : Las K) (h : Ok L) (k : Nat) (σ : Bool) (p q : Nat) (hp : p < L.ncas) (hq : q < L.ncas) :
    L.stateCasdm1s k σ p q = L.stateCasdm1s k σ q p :=
  rdm1s_symm L.sub (L.fr k) (fun f => h.d f k) σ p q hp hq

theorem casdm1s_symm (L : Las K) (h : Ok L) (σ : Bool) (p q : Nat) (hp : p < L.ncas) (hq : q < L.ncas) :
    L.casdm1s σ p q = L.casdm1s σ q p := by
  rw [casdm1s_avg L σ p q hp hq, casdm1s_avg L σ q p hq hp]
  exact Finset.sum_congr rfl fun r _ => by rw [stateCasdm1s_symm L h r σ p q hp hq]

theorem rdm1_symm (n m : Nat) (d : Bool → Mat K) (hd : ∀ σ, ∀ p < m, ∀ q < m, d σ p q = d σ q p) (σ : Bool) :
    ∀ p ∈ Finset.range (n + m), ∀ q ∈ Finset.range (n + m), rdm1 n d σ p q = rdm1 n d σ q p := by
  intro p hp q hq
  rw [Finset.mem_range] at hp hq
  unfold rdm1
  by_cases h : p < n ∨ q < n
  · rw [if_pos h, if_pos h.symm]
    exact if_congr eq_comm rfl rfl
  · rw [if_neg h, if_neg (fun x => h x.symm)]
    push Not at h
    exact hd σ _ (by omega) _ (by omega)

theorem rdm1_toAO (n m : Nat) (C : Mat K) (d : Bool → Mat K) (σ : Bool) (μ ν : Nat) :
    toAO (n + m) C (rdm1 n d σ) μ ν = (∑ i ∈ Finset.range n, C μ i * C ν i) +
      ∑ p ∈ Finset.range m, C μ (n + p) * ∑ q ∈ Finset.range m, d σ p q * C ν (n + q) := by
  rw [core_toAO n m C σ, act_toAO n m C d σ, ← toAO_add]
  exact toAO_congr _ _ _ _ (fun p _ q _ => rdm1_split n d σ p q) μ ν

theorem stateRdm1s_eq (L : Las K) (r : Nat) (σ : Bool) (μ ν : Nat) :
    L.stateRdm1s r σ μ ν = toAO (L.ncore + L.ncas) L.mo (rdm1 L.ncore (L.stateCasdm1s r) σ) μ ν := by
  rw [rdm1_toAO]
  unfold Las.stateRdm1s Las.dmCore
  exact add_comm _ _

theorem rdm1sSub_sum (L : Las K) (σ : Bool) (μ ν : Nat) : ((L.rdm1sSub false).map fun d => d σ μ ν).sum =
    ∑ p ∈ Finset.range L.ncas, L.mo μ (L.ncore + p) *
      ∑ q ∈ Finset.range L.ncas, L.casdm1s σ p q * L.mo ν (L.ncore + q) := by
  unfold Las.rdm1sSub
  simp only [Bool.false_and, Bool.false_eq_true, if_false, List.map_map]
  have hl : ∀ (F : Nat → K) n, ((List.range n).map F).sum = ∑ f ∈ Finset.range n, F f := by
    intro F n
    induction n with
    | zero => simp
    | succ n ih => rw [List.range_succ, List.map_append, List.sum_append, ih, Finset.sum_range_succ]; simp
  refine (hl _ _).trans ?_
  simp only [Function.comp_def, moSlice_eq, Finset.mul_sum]
  have h2 := sum_frags2 L.sub fun p q => L.mo μ (L.ncore + p) * (L.casdm1s σ p q * L.mo ν (L.ncore + q))
  refine Eq.trans ?_ (h2.trans ?_)
  · refine Finset.sum_congr rfl fun f hf => Finset.sum_congr rfl fun a ha => Finset.sum_congr rfl fun b hb => ?_
    rw [Finset.mem_range] at ha hb
    have ba : lo L.sub f + a < L.ncas := slice_bound L f a ha
    have bb : lo L.sub f + b < L.ncas := slice_bound L f b hb
    have ia := (ins_iff L.sub _ ba f).1 (by unfold PsEnergy.ins PsEnergy.hi; simp only [Bool.and_eq_true, decide_eq_true_eq]; omega)
    have ib := (ins_iff L.sub _ bb f).1 (by unfold PsEnergy.ins PsEnergy.hi; simp only [Bool.and_eq_true, decide_eq_true_eq]; omega)
    rw [casdm1s_entry L σ _ _ ba bb, ia, ib, if_pos rfl, Nat.add_sub_cancel_left, Nat.add_sub_cancel_left]
  · refine Finset.sum_congr rfl fun p hp => Finset.sum_congr rfl fun q hq => ?_
    rw [Finset.mem_range] at hp hq
    split
    · rfl
    · rename_i hne
      rw [casdm1s_entry L σ p q hp hq, if_neg hne, zero_mul, mul_zero]

theorem rdm1s_eq (L : Las K) (σ : Bool) (μ ν : Nat) :
    L.rdm1s false σ μ ν = toAO (L.ncore + L.ncas) L.mo (rdm1 L.ncore L.casdm1s σ) μ ν := by
  rw [rdm1_toAO, ← rdm1sSub_sum]
  rfl

end Verif.LasEnergy
