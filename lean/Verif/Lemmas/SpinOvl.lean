import Verif.Lemmas.SpinBridge
import Verif.Props.SpinOp
/-!
# Overlaps of states of multiplets
-/
namespace Verif.FragSpin
open Verif.Spec.Tdm Verif.Spec.RdmSmult Verif.Spec.Spin Verif.SpinAmp Verif.Wigner Verif.SpinFam

theorem amp_dn0 {N S' S : ℕ} {φ ψ : ℕ → Vec ℝ} (hφ : Fam N S' φ) (hψ : Fam N S ψ) : Dn0 S' S fun i j => ovl N (φ i) (ψ j) := by
  have h := amp_dn hφ hψ (l := []) (r := []) (fun x hx => absurd hx (by simp)) (fun x hx => absurd hx (by simp))
  have e : (fun i j => ((dU []).map fun w => amp N φ ψ w [] i j).sum - ((dL []).map fun w => amp N φ ψ [] w i j).sum) =
      fun _ _ => (0 : ℝ) := by
    funext i j
    simp [dU, dL]
  rw [e] at h
  exact h

/-- Overlaps do not change when both states are rotated together. -/
theorem fam_ovl {N S' S : ℕ} {φ ψ : ℕ → Vec ℝ} (hφ : Fam N S' φ) (hψ : Fam N S ψ) {i j i' j' : ℕ} (hi : i ≤ S') (hj : j ≤ S)
    (hi' : i' ≤ S') (hj' : j' ≤ S) (h : (S' : ℤ) - 2 * i = S - 2 * j) (h' : (S' : ℤ) - 2 * i' = S - 2 * j') :
    ovl N (φ i) (ψ j) = ovl N (φ i') (ψ j') := by
  have d := amp_dn0 hφ hψ
  rcases Nat.lt_trichotomy S' S with hS | hS | hS
  · rw [d.van i j (by omega) hj, d.van i' j' (by omega) hj']
  · subst hS
    obtain rfl : i = j := by omega
    obtain rfl : i' = j' := by omega
    have key : ∀ k, k ≤ S' → ovl N (φ k) (ψ k) = ovl N (φ 0) (ψ 0) := by
      intro k
      induction k with
      | zero => intro _; rfl
      | succ k ih =>
        intro hk
        have e := d.succ k k
        have hc := c_pos (S := S') (j := k) (by omega)
        rw [← ih (by omega)]
        have : c S' k * (ovl N (φ k) (ψ k) - ovl N (φ (k + 1)) (ψ (k + 1))) = 0 := by rw [mul_sub]; exact e
        rcases mul_eq_zero.1 this with h0 | h0
        · exact absurd h0 hc.ne'
        · linarith
    rw [key i hi, key i' hi']
  · have d' := amp_dn0 hψ hφ
    rw [Verif.Tdm.ovl_comm N (φ i), Verif.Tdm.ovl_comm N (φ i')]
    rw [d'.van j i (by omega) hi, d'.van j' i' (by omega) hi']

theorem ok_nat {smult : ℤ} {na nb : ℕ} (h : SpinOK smult na nb) : ∃ S : ℕ, smult = S + 1 := by
  have := h.low; have := h.high
  exact ⟨(smult - 1).toNat, by omega⟩

theorem mdown_mup {norb na nb : ℕ} {smult : ℤ} {v : Verif.SpinOp.Vec} (h : State norb na nb smult v) :
    SpinOp.mdown norb na nb smult (SpinOp.mup norb na nb smult v) = v := by
  obtain ⟨a0, b0, z1, z2⟩ : ∃ a0 b0 : ℕ, a0 + b0 = na + nb ∧ (a0 : ℤ) - b0 = smult - 1 := by
    have := h.ok.parity; have := h.ok.elec; have := h.ok.high; have := h.ok.low
    exact ⟨((na + nb + (smult - 1)) / 2).toNat, ((na + nb - (smult - 1)) / 2).toNat, by omega, by omega⟩
  exact (Verif.Props.C32_mup h.ok z1 z2 h.inSpace h.pure).2.2.2

/-- Two states of one multiplet and two of another, with the same projections. -/
theorem ovl_rotated {norb na nb na' nb' : ℕ} {s t : ℤ} {v w v' w' : Verif.SpinOp.Vec} (hv : State norb na nb s v)
    (hw : State norb na nb t w) (hv' : State norb na' nb' s v') (hw' : State norb na' nb' t w') (hN : na' + nb' = na + nb)
    (ev : SpinOp.mup norb na nb s v = SpinOp.mup norb na' nb' s v') (ew : SpinOp.mup norb na nb t w = SpinOp.mup norb na' nb' t w') :
    ovl norb (onStrings norb v) (onStrings norb w) = ovl norb (onStrings norb v') (onStrings norb w') := by
  obtain ⟨S, rfl⟩ := ok_nat hv.ok
  obtain ⟨T, rfl⟩ := ok_nat hw.ok
  obtain ⟨D, f1, f2, f3⟩ := family rfl hv.ok hv.inSpace hv.pure
  obtain ⟨E, g1, g2, g3⟩ := family rfl hw.ok hw.inSpace hw.pure
  obtain ⟨i, hi, hi'⟩ : ∃ i : ℕ, 2 * (i : ℤ) = S - ((na : ℤ) - nb) ∧ i ≤ S := by
    have := hv.ok.parity; have := hv.ok.low; have := hv.ok.high
    exact ⟨((S - ((na : ℤ) - nb)) / 2).toNat, by omega, by omega⟩
  obtain ⟨j, hj, hj'⟩ : ∃ i : ℕ, 2 * (i : ℤ) = T - ((na : ℤ) - nb) ∧ i ≤ T := by
    have := hw.ok.parity; have := hw.ok.low; have := hw.ok.high
    exact ⟨((T - ((na : ℤ) - nb)) / 2).toNat, by omega, by omega⟩
  obtain ⟨k, hk, hk'⟩ : ∃ i : ℕ, 2 * (i : ℤ) = S - ((na' : ℤ) - nb') ∧ i ≤ S := by
    have := hv'.ok.parity; have := hv'.ok.low; have := hv'.ok.high
    exact ⟨((S - ((na' : ℤ) - nb')) / 2).toNat, by omega, by omega⟩
  obtain ⟨l, hl, hl'⟩ : ∃ i : ℕ, 2 * (i : ℤ) = T - ((na' : ℤ) - nb') ∧ i ≤ T := by
    have := hw'.ok.parity; have := hw'.ok.low; have := hw'.ok.high
    exact ⟨((T - ((na' : ℤ) - nb')) / 2).toNat, by omega, by omega⟩
  have e1 : v' = D k := by rw [← f3 na' nb' k hN hk hk', ev, mdown_mup hv']
  have e2 : w' = E l := by rw [← g3 na' nb' l hN hl hl', ew, mdown_mup hw']
  rw [f2 i hi, g2 j hj, e1, e2]
  exact fam_ovl f1 g1 hi' hj' hk' hl' (by omega) (by omega)

end Verif.FragSpin
