import Verif.Lemmas.RdmAmp
import Verif.Lemmas.SpinFam
/-!
# Lemmas: the places of given and rotated CI vectors in their spin multiplets
-/
namespace Verif.RdmSmult
open Verif.Spec.RdmSmult Verif.Spec.Tdm Verif.Wigner Verif.SpinAmp Verif.Spec.Spin

/-- The two multiplets, the places of the given and of the rotated vectors in them. -/
theorem rdm_top {norb na nb na' nb' : ℕ} {smb smk : ℤ} {bra ket : Verif.SpinOp.Vec} {d : ℤ × ℤ}
    (hb : State norb na' nb' smb bra) (hk : State norb na nb smk ket) (h1 : (na' : ℤ) = na + d.1) (h2 : (nb' : ℤ) = nb + d.2) :
    ∃ (S' S : ℕ) (φ ψ : ℕ → Vec ℝ) (i j i0 j0 : ℕ), smb = S' + 1 ∧ smk = S + 1 ∧ Fam norb S' φ ∧ Fam norb S ψ ∧
      Ix S' S (d.2 - d.1) i j i0 j0 ∧ onStrings norb bra = φ i ∧ onStrings norb ket = ψ j ∧ (na : ℤ) - nb = S - 2 * j ∧
      onStrings norb (getHighmCivecs bra ket norb (na, nb) d (some smb) (some smk)).1 = φ i0 ∧
      onStrings norb (getHighmCivecs bra ket norb (na, nb) d (some smb) (some smk)).2.1 = ψ j0 := by
  obtain ⟨⟨bl, bh, be, bp⟩, bs, bu⟩ := hb
  obtain ⟨⟨kl, kh, ke, kp⟩, ks, ku⟩ := hk
  obtain ⟨S', hS'⟩ : ∃ S' : ℕ, smb = S' + 1 := ⟨(smb - 1).toNat, by omega⟩
  obtain ⟨S, hS⟩ : ∃ S : ℕ, smk = S + 1 := ⟨(smk - 1).toNat, by omega⟩
  obtain ⟨φ, f1, f2, f3⟩ := Verif.SpinFam.family hS' ⟨bl, bh, be, bp⟩ bs bu
  obtain ⟨ψ, g1, g2, g3⟩ := Verif.SpinFam.family hS ⟨kl, kh, ke, kp⟩ ks ku
  obtain ⟨m, hm⟩ : ∃ m : ℤ, m = min (smk - 1) (smb - 1 - (d.1 - d.2)) := ⟨_, rfl⟩
  have hz : m = smk - 1 ∨ m = smb - 1 - (d.1 - d.2) := by omega
  have m1 : m ≤ smk - 1 := by omega
  have m2 : m ≤ smb - 1 - (d.1 - d.2) := by omega
  have m3 : (na : ℤ) - nb ≤ m := by omega
  have m4 : (2 : ℤ) ∣ smk - 1 - m := by omega
  refine ⟨S', S, fun j => onStrings norb (φ j), fun j => onStrings norb (ψ j), ((S' - ((na' : ℤ) - nb')) / 2).toNat,
    ((S - ((na : ℤ) - nb)) / 2).toNat, ((S' - (m + (d.1 - d.2))) / 2).toNat, ((S - m) / 2).toNat, hS', hS, f1, g1,
    ⟨by omega, by omega, by omega, by omega, by omega⟩, ?_, ?_, by omega, ?_, ?_⟩
  · exact congrArg (onStrings norb) (f2 _ (by omega))
  · exact congrArg (onStrings norb) (g2 _ (by omega))
  · unfold getHighmCivecs
    dsimp only
    rw [← hm, show ((na : ℤ) + d.1).toNat = na' by omega, show ((nb : ℤ) + d.2).toNat = nb' by omega]
    exact congrArg (onStrings norb) (f3 _ _ _ (by omega) (by omega) (by omega))
  · unfold getHighmCivecs
    dsimp only
    rw [← hm, Int.toNat_natCast, Int.toNat_natCast]
    exact congrArg (onStrings norb) (g3 _ _ _ (by omega) (by omega) (by omega))

theorem rdm_num1 {na nb na' nb' : ℕ} {smb smk d1 d2 m : ℤ} (hb : SpinOK smb na' nb') (hk : SpinOK smk na nb)
    (h1 : (na' : ℤ) = na + d1) (h2 : (nb' : ℤ) = nb + d2) (hm : m = min (smk - 1) (smb - 1 - (d1 - d2))) :
    ∃ ka kb : ℕ, (((na : ℤ) + nb + m) / 2).toNat = ka ∧ (((na : ℤ) + nb - m) / 2).toNat = kb ∧ ka + kb = na + nb ∧ (ka : ℤ) - kb = m ∧
      SpinOK smk ka kb := by
  obtain ⟨bl, bh, be, bp⟩ := hb
  obtain ⟨kl, kh, ke, kp⟩ := hk
  have m1 : m ≤ smk - 1 := by omega
  have m3 : (na : ℤ) - nb ≤ m := by omega
  have m4 : (2 : ℤ) ∣ smk - 1 - m := by omega
  clear hm
  refine ⟨_, _, rfl, rfl, by omega, by omega, by omega, by omega, by omega, by omega⟩

theorem rdm_num2 {na nb na' nb' : ℕ} {smb smk d1 d2 m : ℤ} (hb : SpinOK smb na' nb') (hk : SpinOK smk na nb)
    (h1 : (na' : ℤ) = na + d1) (h2 : (nb' : ℤ) = nb + d2) (hm : m = min (smk - 1) (smb - 1 - (d1 - d2))) :
    ∃ ka kb : ℕ, (((na : ℤ) + d1 + (nb + d2) + (m + (d1 - d2))) / 2).toNat = ka ∧
      (((na : ℤ) + d1 + (nb + d2) - (m + (d1 - d2))) / 2).toNat = kb ∧ ka + kb = na' + nb' ∧ (ka : ℤ) - kb = m + (d1 - d2) ∧
      SpinOK smb ka kb := by
  obtain ⟨bl, bh, be, bp⟩ := hb
  obtain ⟨kl, kh, ke, kp⟩ := hk
  have m1 : m ≤ smb - 1 - (d1 - d2) := by omega
  have m3 : (na : ℤ) - nb ≤ m := by omega
  have m4 : (2 : ℤ) ∣ smk - 1 - m := by omega
  clear hm
  refine ⟨_, _, rfl, rfl, by omega, by omega, by omega, by omega, by omega, by omega⟩

end Verif.RdmSmult
